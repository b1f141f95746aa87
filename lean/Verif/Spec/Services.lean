import Verif.Spec.Http
import Verif.Spec.EndToEnd
import Verif.Spec.Causal

/-!
# Vocabulary for distributed programs: services that call each other by HTTP

Every request is handled by the middleware of `Verif.Model.Http`; handlers call other services through a `Transport` whose recorder has
the handler's span, and may record spans of their own.
-/

namespace Appdash.Spec

/-- A request that was handled by a traced service. -/
structure ServedReq where
  env : ServerEnv
  n : Nat
  request : Request
  header : Header
  out : ServerRun
  run : HandlerRun
  /-- the span that the middleware found in the header, or made -/
  id : SpanID

/-- A call through a `Transport`. -/
structure ClientCall where
  env : ClientEnv
  n : Nat
  heap : HeaderHeap
  original : Request
  out : ClientRun

/-- A span that a handler records itself. -/
structure LocalSpan where
  id : SpanID
  recording : Recording

/-- A handled request, the calls and spans made by its handler, and the requests that other services handled because of these calls. -/
inductive Handled where
  | mk (s : ServedReq) (calls : List ClientCall) (locals : List LocalSpan) (children : List Handled)

/-- The request itself. -/
def Handled.req : Handled → ServedReq
  | .mk s _ _ _ => s

/-- The number fits into 64 bits. -/
def FitsInt64 (i : Int) : Prop := -2 ^ 63 ≤ i ∧ i < 2 ^ 63

/-- The middleware has handled the request: the handler has not panicked, the collector accepts what it gets, and times and numbers are in
the range that can be recorded. -/
structure ServedReq.Ok (s : ServedReq) : Prop where
  serves : Serves s.env s.n s.request s.header s.out
  span : getSpanID s.env.src s.n s.header = (some s.id, none)
  handler : s.env.next s.request s.header s.id = some s.run
  accepted : ∀ calls call, s.env.collector.answer calls call = none
  times : ScalarTy.time.holds (.time s.env.recvTime) = true ∧ ScalarTy.time.holds (.time s.env.sendTime) = true
  lengths : FitsInt64 s.request.contentLength ∧ FitsInt64 s.run.request.contentLength
  written : (written s.run.ops).length < 2 ^ 63
  codes : ∀ c ∈ codes s.run.ops, c ≠ 0 ∧ -2 ^ 63 ≤ c ∧ c < 2 ^ 63

/-- The transport has made the call for a handler with the span `parent`; it may have failed.  The header of the request has no span ID under another
spelling of its name. -/
structure ClientCall.Ok (c : ClientCall) (parent : SpanID) : Prop where
  trips : RoundTrips c.env c.n c.heap c.original c.out
  span : c.env.span = parent
  accepted : ∀ calls call, c.env.collector.answer calls call = none
  times : ScalarTy.time.holds (.time c.env.sendTime) = true ∧ ScalarTy.time.holds (.time c.env.recvTime) = true
  length : FitsInt64 c.original.contentLength
  response : ∀ resp, c.out.result = .ok resp → FitsInt64 resp.contentLength ∧ FitsInt64 resp.statusCode
  spelling : ∀ k ∈ (c.original.headerIn c.heap).keys, canonicalKey k = b!"Span-Id" → k = b!"Span-Id"
  names : (c.original.headerIn c.heap).keys.Nodup

/-- Everything went as described: each request below was caused by one of the handler's calls, whose header the network delivered. -/
inductive Handled.Ok : Handled → Prop
  | mk (s : ServedReq) (calls : List ClientCall) (locals : List LocalSpan) (children : List Handled) : s.Ok →
      (∀ c ∈ calls, c.Ok s.id) → (∀ l ∈ locals, l.recording.Proper l.id ∧ ∃ g, l.id = newSpanID s.id g) →
      (∀ h ∈ children, h.Ok) → (∀ h ∈ children, ∃ c ∈ calls, Delivered c.out.sentHeader h.req.header) →
      Handled.Ok (.mk s calls locals children)

mutual
/-- The trace that the requests form: below the span of a request those of its calls, those its handler recorded, and the requests caused. -/
def Handled.tree : Handled → Tree
  | .mk s calls locals children => .node ⟨s.id, []⟩
      (calls.map (fun c => .node ⟨c.out.recorder.span, []⟩ []) ++ locals.map (fun l => .node ⟨l.id, []⟩ []) ++ Handled.trees children)
def Handled.trees : List Handled → List Tree
  | [] => []
  | h :: hs => h.tree :: Handled.trees hs
end

mutual
/-- What all services and clients send to their collectors. -/
def Handled.deliveries : Handled → List RecCall
  | .mk s calls locals children => (s.out.recorder.elim [] Recorder.calls) ++
      (calls.flatMap (·.out.recorder.calls) ++ locals.flatMap (fun l => l.recording.calls l.id) ++ Handled.deliveriesOf children)
def Handled.deliveriesOf : List Handled → List RecCall
  | [] => []
  | h :: hs => h.deliveries ++ Handled.deliveriesOf hs
end

mutual
/-- All handled requests. -/
def Handled.requests : Handled → List ServedReq
  | .mk s _ _ children => s :: Handled.requestsOf children
def Handled.requestsOf : List Handled → List ServedReq
  | [] => []
  | h :: hs => h.requests ++ Handled.requestsOf hs
end

mutual
/-- All calls. -/
def Handled.clientCalls : Handled → List ClientCall
  | .mk _ calls _ children => calls ++ Handled.clientCallsOf children
def Handled.clientCallsOf : List Handled → List ClientCall
  | [] => []
  | h :: hs => h.clientCalls ++ Handled.clientCallsOf hs
end

mutual
/-- All spans that handlers recorded. -/
def Handled.localSpans : Handled → List LocalSpan
  | .mk _ _ locals children => locals ++ Handled.localSpansOf children
def Handled.localSpansOf : List Handled → List LocalSpan
  | [] => []
  | h :: hs => h.localSpans ++ Handled.localSpansOf hs
end

/-- The events show the request: its name, and a server event with the request, the response, the route, the user and the times. -/
def ShowsRequest (s : ServedReq) (evs : List (Bytes × GVal)) : Prop :=
  ∃ reqInfo respHeaders,
    (∃ q qh m, ((q = s.request ∧ qh = s.header) ∨ (q = s.run.request ∧ qh = s.run.requestHeader)) ∧
      RedactsTo s.env.red qh q.trailer m ∧ reqInfo = requestInfo q m) ∧
    RedactsTo s.env.red (AMap.set s.run.header b!"Span-Id" [s.id.toText]) [] respHeaders ∧
    AreEvents
      [(spanNameEvent, nameValue (b!"Serve " ++
          (match (s.env.routeName.map fun f => f s.run.request s.run.requestHeader).getD [] with
            | [] => s.run.request.urlHost ++ s.run.request.urlPath
            | route => route))),
        (serverEvent, .struct [reqInfo,
          .struct [gStrings respHeaders, .scalar (.int (written s.run.ops).length), .scalar (.int ((codes s.run.ops).getLastD 200))],
          gString ((s.env.routeName.map fun f => f s.run.request s.run.requestHeader).getD []),
          gString ((s.env.currentUser.map fun f => f s.run.request s.run.requestHeader).getD []),
          .scalar (.time s.env.recvTime), .scalar (.time s.env.sendTime)])] evs

/-- The events show the call: its name if names are set, and a client event with the request, the response or the status -1, and the times. -/
def ShowsCall (c : ClientCall) (evs : List (Bytes × GVal)) : Prop :=
  ∃ reqHeaders respInfo, RedactsTo c.env.red c.out.sentHeader c.original.trailer reqHeaders ∧
    (∀ e, c.out.result = .error e → respInfo = .struct [.map [], .scalar (.int 0), .scalar (.int (-1))]) ∧
    (∀ resp, c.out.result = .ok resp → ∃ respHeaders, RedactsTo c.env.red resp.header resp.trailer respHeaders ∧
      respInfo = responseInfo resp respHeaders) ∧
    AreEvents
      ((if c.env.setName then [(spanNameEvent, nameValue (b!"Request " ++ c.original.urlHost))] else []) ++
        [(clientEvent, .struct [requestInfo c.original reqHeaders, respInfo, .scalar (.time c.env.sendTime),
          .scalar (.time c.env.recvTime)])]) evs

/-- The events show what the span stands for in the distributed program. -/
def Handled.Shows (h : Handled) (id : SpanID) (evs : List (Bytes × GVal)) : Prop :=
  (∃ s ∈ h.requests, s.id = id ∧ ShowsRequest s evs) ∨ (∃ c ∈ h.clientCalls, c.out.recorder.span = id ∧ ShowsCall c evs) ∨
    ∃ l ∈ h.localSpans, l.id = id ∧ AreEvents l.recording.events evs

end Appdash.Spec
