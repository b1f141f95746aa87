import Verif.Proofs.Wrap
import Verif.Properties.Http

/-!
# C90 and C91: the response behind the HTTP server middleware
-/

namespace Appdash

open Spec

/-- **C90** (responses).  If the handler sends anything, the client receives behind the middleware exactly what it would receive without:
the same status, header and body; and a panic for a panic. -/
theorem middleware_transparent {next : WebHandler} (hp : Portable next) {caps : WriterCaps} (hs : Sends caps (next recorderCaps))
    (spanID : SpanID) (h : Header) : serveTraced caps next spanID h = servePlain caps next h := by
  obtain ⟨h1, h2⟩ := recorder_plain hp caps (WebWriter.new h)
  rw [serveTraced, servePlain, h1]
  cases hw : (WebWriter.new h).ops (next caps) with
  | none => rfl
  | some w =>
    have := ops_sends (h2.1 hs) hw
    obtain ⟨x, hx⟩ := Option.isSome_iff_exists.1 this
    simp [WebWriter.received, hx]

/-- **C90** (empty responses).  If the handler sends nothing itself, the response only gains the span's header, from which the
client can read the span. -/
theorem middleware_adds_header {next : WebHandler} (hp : Portable next) {caps : WriterCaps} (hs : ¬ Sends caps (next recorderCaps))
    (spanID : SpanID) (h : Header) : ∃ hdr, servePlain caps next h = some (200, hdr, []) ∧
      serveTraced caps next spanID h = some (200, setSpanIDHeader hdr spanID, []) ∧
      (∀ src n, getSpanID src n (setSpanIDHeader hdr spanID) = (some spanID, none)) ∧
      ∀ k, k ≠ b!"Span-Id" → AMap.get (setSpanIDHeader hdr spanID) k = AMap.get hdr k := by
  obtain ⟨h1, h2⟩ := recorder_plain hp caps (WebWriter.new h)
  have hs' := fun h => hs (h2.2 h)
  obtain ⟨w, hw⟩ := ops_unsent_some hs' (WebWriter.new h)
  obtain ⟨h3, h4⟩ := ops_unsent hs' hw
  have h3 : w.sent = none := h3
  have h4 : w.body = [] := h4
  refine ⟨w.header, ?_, ?_, fun src n => (set_then_get src n _ _).1, (set_then_get (fun _ => 0) 0 w.header spanID).2⟩
  · simp [servePlain, hw, WebWriter.received, h3, h4]
  · simp [serveTraced, h1, hw, WebWriter.received, h3, h4]

/-- **C91**, full statement: the client finds the span of its request in every response. -/
def EveryResponseHasSpan : Prop :=
  ∀ (caps : WriterCaps) (next : WebHandler) (spanID : SpanID) (h : Header) (status : Int) (hdr : Header) (body : Bytes),
    serveTraced caps next spanID h = some (status, hdr, body) → hdr.Says b!"Span-Id" spanID.toText

/-- **C91** is false of the code: the header is set when the handler has returned, and by then it is sent. -/
theorem response_without_span : ¬ EveryResponseHasSpan := by
  intro H
  have := H ⟨true, true⟩ (fun _ => [.write b!"hello"]) ⟨1, 2, 0⟩ [] 200 [] b!"hello" rfl
  obtain ⟨-, vs, h⟩ := this
  cases h

/-- **C91**, the part that fails, in general: if a portable handler sends anything and does not touch the span's header, and no outer
handler does, then the client never finds it. -/
theorem response_lacks_span {next : WebHandler} (hp : Portable next) {caps : WriterCaps} (hs : Sends caps (next recorderCaps))
    (hh : ∀ f, .editHeader f ∈ next caps → ∀ h : Header, h.Lacks b!"Span-Id" → (f h).Lacks b!"Span-Id")
    {spanID : SpanID} {h : Header} (h0 : h.Lacks b!"Span-Id") {status : Int} {hdr : Header} {body : Bytes}
    (hr : serveTraced caps next spanID h = some (status, hdr, body)) : hdr.Lacks b!"Span-Id" := by
  rw [middleware_transparent hp hs, servePlain] at hr
  cases hw : (WebWriter.new h).ops (next caps) with
  | none => rw [hw] at hr; cases hr
  | some w =>
    obtain ⟨h1, h2⟩ := ops_header (P := fun h => h.Lacks b!"Span-Id") hh (w := .new h) h0 (by intro x hx; cases hx) hw
    rw [hw] at hr
    simp only [Option.map, WebWriter.received, Option.some.injEq, Prod.mk.injEq] at hr
    rw [← hr.2.1]
    cases hs : w.sent with
    | none => exact h1
    | some x => exact h2 x hs

/-- **C91**, the part that holds: the client finds the span in a response to which the handler contributed at most headers. -/
theorem span_in_empty_response_partial {next : WebHandler} (hp : Portable next) {caps : WriterCaps}
    (hs : ¬ Sends caps (next recorderCaps)) {spanID : SpanID} {h : Header} :
    ∃ hdr, serveTraced caps next spanID h = some (200, hdr, []) ∧ hdr.Says b!"Span-Id" spanID.toText := by
  obtain ⟨hdr, -, h1, h2, -⟩ := middleware_adds_header hp hs spanID h
  refine ⟨_, h1, ?_, [], by simp only [setSpanIDHeader, Header.put, canonical_spanID, AMap.get_set_self]⟩
  intro h0
  have := span_id_text_roundtrip spanID
  rw [h0, show parseSpanID [] = .error .badSpanID by decide] at this
  cases this

/-- **C91**, second full statement: the client receives the same response with and without the middleware, whatever the handler. -/
def AlwaysTransparent : Prop :=
  ∀ (caps : WriterCaps) (next : WebHandler), Sends caps (next recorderCaps) → ∀ (spanID : SpanID) (h : Header),
    serveTraced caps next spanID h = servePlain caps next h

/-- It is false of the code: the recorder hides that the response writer is an `http.Hijacker`, so that a handler that needs one (such
as a websocket handler) fails behind the middleware. -/
theorem hijack_hidden : ¬ AlwaysTransparent := by
  intro H
  have := H ⟨true, true⟩ (fun caps => if caps.hijacker then [.writeHeader 101] else [.writeHeader 500]) (by
    refine ⟨.writeHeader 500, ?_, trivial⟩
    simp [recorderCaps]) ⟨1, 2, 0⟩ []
  have e : (some 500 : Option Int) = some 101 := congrArg (Option.map Prod.fst) this
  revert e
  decide

/-- A handler that sets a header, writes and flushes. -/
def sampleHandler : WebHandler := fun caps =>
  if caps.flusher then [.editHeader fun h => h.put b!"x" b!"1", .write b!"a", .flush, .write b!"b"]
  else [.editHeader fun h => h.put b!"x" b!"1", .write b!"a", .write b!"b"]

example : Portable sampleHandler :=
  ⟨[.editHeader fun h => h.put b!"x" b!"1", .write b!"a", .flush, .write b!"b"], fun caps => by
    cases caps with | mk b c => cases b <;> rfl⟩
example (caps : WriterCaps) : Sends caps (sampleHandler recorderCaps) := ⟨.write b!"a", by simp [sampleHandler, recorderCaps], trivial⟩
example : serveTraced ⟨false, false⟩ sampleHandler ⟨1, 2, 0⟩ [] = some (200, [(b!"X", [b!"1"])], b!"ab") := rfl

/-- A handler that sends nothing. -/
example : ¬ Sends ⟨false, true⟩ [.editHeader id, .flush] := by simp [Sends]
example : serveTraced ⟨false, true⟩ (fun _ => [.editHeader id, .flush]) ⟨1, 2, 0⟩ [] =
    some (200, [(b!"Span-Id", [b!"0000000000000001/0000000000000002"])], []) := rfl

end Appdash
