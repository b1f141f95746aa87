import Verif.Model.OpenTracing
import Verif.Model.Dashboard

/-!
# Model of the example `webapp-opentracing` (examples/cmd/webapp-opentracing/main.go)

The handlers make spans with the tracer of opentracing/tracer.go, that is with the library basictracer, which is not in /repo.  Of it the
model has what a finished span hands to the recorder: a span without parent gets a new trace ID and a new span ID, a child of a span context
has the trace ID, the sampling decision and the baggage of the context and its span ID as parent; `SetTag` and `SetBaggageItem` set a key of a
map, and `LogEvent` adds a log record with the one field `event`.  How a context is put into the header of a request and read from it
(`Inject`, `Extract`) is left open.
-/

namespace Appdash

/-- opentracing/tracer.go:41-46 `DefaultOptions`: every trace is sampled. -/
def defaultShouldSample (_ : ID) : Bool := true

/-- The context of a span (basictracer `SpanContext`). -/
structure OTContext where
  trace : ID
  span : ID
  sampled : Bool
  baggage : AMap Bytes Bytes
deriving DecidableEq, Repr

/-- examples/cmd/webapp-opentracing/main.go:157-165 `addHeaderTags`.  (The map is visited in any order; its keys are different, so the order
does not matter.) -/
def addHeaderTags (tags : AMap Bytes Bytes) (h : Header) : AMap Bytes Bytes :=
  h.foldl (fun m e => AMap.set m (b!"Request.Header." ++ e.1) (joinWith b!", " e.2)) tags

/-- What came of a call of the endpoint: an error, logged at this time, or a response with this status. -/
inductive OTOutcome where
  | failed (time : GoTime) (err : Bytes)
  | answered (status : Bytes)
deriving DecidableEq, Repr

/-- examples/cmd/webapp-opentracing/main.go:116-125: what the loop does with the span after a call. -/
def otHomeCall (sp : RawSpan) : OTOutcome → RawSpan
  | .failed time err => { sp with logs := sp.logs ++ [⟨time, [[(b!"event", err)]]⟩] }
  | .answered status => { sp with tags := AMap.set sp.tags b!"Response.Status" status }

/-- examples/cmd/webapp-opentracing/main.go:86-126 `Home`: its span, when it is finished. -/
def otHomeSpan (trace span : ID) (start : GoTime) (duration : Int) (r : Request) (h : Header) (user : Bytes) (calls : List OTOutcome) : RawSpan :=
  calls.foldl otHomeCall
    { sampled := defaultShouldSample trace, trace := trace, span := span, parent := 0, operation := r.urlPath, start := start
      duration := duration, logs := []
      tags := addHeaderTags (AMap.set (AMap.set [] b!"Request.Host" r.host) b!"Request.Address" r.remoteAddr) h
      baggage := AMap.set [] b!"User" user }

/-- examples/cmd/webapp-opentracing/main.go:128-130: the page that `Home` writes. -/
def otHomePage : List Bytes :=
  [b!"<p>Three API requests have been made!</p>", b!"<p><a href=\"http://localhost:8700/traces\" target=\"_\">View the trace</a></p>"]

/-- examples/cmd/webapp-opentracing/main.go:139-155 `Endpoint`: its span, when it is finished.  There is none if the header has no context. -/
def otEndpointSpan (extract : Header → Option OTContext) (span : ID) (start : GoTime) (duration : Int) (r : Request) (h : Header) :
    Option RawSpan :=
  match extract h with
  | none => none
  | some ctx =>
    some { sampled := ctx.sampled, trace := ctx.trace, span := span, parent := ctx.span, operation := r.urlPath, start := start
           duration := duration, logs := []
           tags := addHeaderTags (AMap.set (AMap.set [] b!"Request.Host" r.host) b!"Request.Method" r.method) h
           baggage := ctx.baggage }

end Appdash
