import Verif.Model.Handler

/-!
# Model of the response behind the HTTP server middleware (httptrace/server.go:70-199)

`Model/Http.lean` models what the middleware records.  Here is what the client receives: the response writer has its header,
which the handler and the middleware can change at any time, and which is sent with the status.
-/

namespace Appdash

/-- What a handler does with its response writer, in order. -/
inductive HandlerOp where
  /-- `Header()`, and whatever the handler then does to the map -/
  | editHeader (f : Header → Header)
  | writeHeader (code : Int)
  | write (b : Bytes)
  /-- `Flush()`, if the writer is an `http.Flusher` -/
  | flush

/-- The optional interfaces of a response writer that a handler can find by a type assertion. -/
structure WriterCaps where
  flusher : Bool
  hijacker : Bool
deriving DecidableEq, Repr

/-- `Flush` of net/http's writer: sends status 200 if nothing was sent. -/
def WebWriter.flush (w : WebWriter) : WebWriter := { w with sent := some (w.sent.getD (200, w.header)) }

/-- A call of a handler on net/http's response writer; `none` is a panic. -/
def WebWriter.op (w : WebWriter) : HandlerOp → Option WebWriter
  | .editHeader f => some { w with header := f w.header }
  | .writeHeader code => w.writeHeader code
  | .write b => some (w.write b)
  | .flush => some w.flush

/-- A sequence of calls. -/
def WebWriter.ops (w : WebWriter) : List HandlerOp → Option WebWriter
  | [] => some w
  | o :: os =>
    match w.op o with
    | none => none
    | some w => w.ops os

/-- A handler: what it does, given the interfaces that its response writer has. -/
abbrev WebHandler := WriterCaps → List HandlerOp

/-- The handler without the middleware: what the client receives; `none` if it panics. -/
def servePlain (caps : WriterCaps) (next : WebHandler) (h : Header) : Option (Int × Header × Bytes) :=
  ((WebWriter.new h).ops (next caps)).map WebWriter.received

/-- httptrace/server.go:153-199 `responseInfoRecorder`: its calls forward to the underlying writer.  `Flush` does so only if that is
a Flusher (httptrace/server.go:195-199). -/
def recorderOp (caps : WriterCaps) (w : WebWriter) : HandlerOp → Option WebWriter
  | .editHeader f => some { w with header := f w.header }
  | .writeHeader code => w.writeHeader code
  | .write b => some (w.write b)
  | .flush => if caps.flusher then some w.flush else some w

/-- A sequence of calls on the recorder. -/
def recorderOps (caps : WriterCaps) (w : WebWriter) : List HandlerOp → Option WebWriter
  | [] => some w
  | o :: os =>
    match recorderOp caps w o with
    | none => none
    | some w => recorderOps caps w os

/-- The interfaces that the recorder has itself, by its methods (httptrace/server.go:153-199): embedding an `http.ResponseWriter`
gives it no others. -/
def recorderCaps : WriterCaps := ⟨true, false⟩

/-- httptrace/server.go:87-89: the handler behind the middleware, which sets the span header when the handler has returned. -/
def serveTraced (caps : WriterCaps) (next : WebHandler) (spanID : SpanID) (h : Header) : Option (Int × Header × Bytes) :=
  match recorderOps caps (WebWriter.new h) (next recorderCaps) with
  | none => none
  | some w => some { w with header := setSpanIDHeader w.header spanID }.received

end Appdash
