import Verif.Proofs.JsonGrammar
import Verif.Properties.Upload
import Verif.Spec.Pages

/-!
# C82: the exported text of a trace, byte for byte
-/

namespace Appdash

open Spec

/-- **C82** (JSON).  Whatever is printed as JSON, with any white space between its parts, before and after it, is read back as the
same value, except that strings come back as valid UTF-8. -/
theorem json_text_roundtrip {L : Layout} (hL : L.Blank) (v : JVal) {w w' : Bytes} (hw : Blank w) (hw' : Blank w') :
    parseJSON (w ++ v.print L 0 ++ w') = some v.clean := by
  have he : Ends w' := by
    cases w' with
    | nil => exact Ends.nil
    | cons c r => exact ends_of (.inl ((isWS_iff c).2 (hw' c (List.mem_cons_self ..)))) r
  have := parseVal_print hL v 0 ((w ++ v.print L 0 ++ w').length + 1) w w' hw (by simp only [List.length_append]; omega) he
  rw [← List.append_assoc] at this
  rw [parseJSON, this]
  have : skipWS w' = [] := by
    have := skipWS_blank hw' []
    rwa [List.append_nil] at this
  simp only [this, if_true]

/-- Valid UTF-8 is not changed. -/
theorem json_string_roundtrip (s : Bytes) : parseJSON (quoteString s) = some (.str (cleanUTF8 s)) := by
  have := json_text_roundtrip Layout.compact_blank (.str s) (w := []) (w' := []) Blank.nil Blank.nil
  simpa [JVal.print, JVal.clean] using this

/-- **C82** (any JSON).  Every text of the grammar of JSON is read as the value it stands for. -/
theorem json_grammar_read {text : Bytes} {v : JVal} (h : IsJSON text v) : parseJSON text = some v := parse_isJSON h

/-- What the page shows is such a text. -/
theorem exportText_isExport (nils : SpanID → Bool × Bool) (tr : Tree) : IsExport nils tr (exportText nils tr) := by
  have := print_text Layout.indent_blank 0 (.arr [traceJSON nils tr])
  simp only [JVal.clean, JVal.cleanList, clean_trace] at this
  exact ⟨[], _, [], Blank.nil, Blank.nil, this, by simp [exportText]⟩

theorem parse_isExport {nils : SpanID → Bool × Bool} {tr : Tree} {text : Bytes} (h : IsExport nils tr text) :
    parseJSON text = some (exportTrace nils tr) := parse_isJSON h

/-- **C82**.  Take any trace returned by a store whose keys are valid UTF-8 and in which no span other than the root is parentless
or is the root's declared parent.  Uploading the text shown on its page, or any other JSON text of the same value, into a store that does
not have the trace succeeds, and `Trace` then returns exactly the exported tree. -/
theorem upload_text_reproduces {ops ops' : List StoreOp} {ms ms' : MemStore} (h : MemStore.new.run ops = some ms)
    (h' : MemStore.new.run ops' = some ms') {t : ID} {tr : Tree} (hv : ms.view t = .found tr)
    (hn : ms'.view t = .notFound) (hk : UTF8Keys tr) (hr : TrueRoot tr) (nils : SpanID → Bool × Bool) {text : Bytes}
    (ht : IsExport nils tr text) :
    ∃ ms'', serveUploadBody ms' text = (ms'', .ok) ∧ ms''.view t = .found tr := by
  simp only [serveUploadBody, parse_isExport ht]
  exact upload_reproduces h h' hv hn hk hr nils

/-- **C82** (the page's own text).  In particular this holds for the text with the indentation of the page. -/
theorem page_text_reproduces {ops ops' : List StoreOp} {ms ms' : MemStore} (h : MemStore.new.run ops = some ms)
    (h' : MemStore.new.run ops' = some ms') {t : ID} {tr : Tree} (hv : ms.view t = .found tr)
    (hn : ms'.view t = .notFound) (hk : UTF8Keys tr) (hr : TrueRoot tr) (nils : SpanID → Bool × Bool) :
    ∃ ms'', serveUploadBody ms' (exportText nils tr) = (ms'', .ok) ∧ ms''.view t = .found tr :=
  upload_text_reproduces h h' hv hn hk hr nils (exportText_isExport nils tr)

/-- **C82** (sub-traces).  The text on the page of a span reproduces exactly the sub-trace below the span, if none of its spans
has ID 0. -/
theorem upload_subtree_text_reproduces {ops ops' : List StoreOp} {ms ms' : MemStore} (h : MemStore.new.run ops = some ms)
    (h' : MemStore.new.run ops' = some ms') {t : ID} {tr u : Tree} (hv : ms.view t = .found tr) (hu : Subtree u tr)
    (hne : u ≠ tr) (hz : ∀ sp ∈ u.spans, sp.id.span ≠ 0) (hn : ms'.view t = .notFound) (hk : UTF8Keys u)
    (nils : SpanID → Bool × Bool) {text : Bytes} (ht : IsExport nils u text) :
    ∃ ms'', serveUploadBody ms' text = (ms'', .ok) ∧ ms''.view t = .found u := by
  simp only [serveUploadBody, parse_isExport ht]
  exact upload_subtree_reproduces h h' hv hu hne hz hn hk nils

/-- **C82** (any body).  Whatever bytes are uploaded: either they are not the JSON of a list of traces, then nothing is stored, or
the traces of the list are stored; in both cases a trace to which none of the uploaded spans belongs stays as it is. -/
theorem upload_any_body {ops : List StoreOp} {ms : MemStore} (h : MemStore.new.run ops = some ms) (body : Bytes) :
    serveUploadBody ms body = (ms, .badJSON) ∨
    ∃ v ps, parseJSON body = some v ∧ decodeSub v = some ps ∧ (serveUploadBody ms body).1 = (uploadTraces ms ps).1 ∧
      ∀ t, (∀ sp ∈ PTree.spansList ps, sp.id.trace ≠ t) → (serveUploadBody ms body).1.view t = ms.view t := by
  unfold serveUploadBody
  cases hp : parseJSON body with
  | none => exact .inl rfl
  | some v =>
    rcases failed_upload_partial h v with ⟨h1, -⟩ | ⟨ps, h1, h2, -⟩
    · exact .inl h1
    · refine .inr ⟨v, ps, rfl, h1, h2, fun t ht => ?_⟩
      simp only [h2]
      exact upload_alters_only_named_partial h ps t ht

set_option maxRecDepth 2000 in
/-- The text of a small trace, as the page shows it. -/
theorem exportText_sample : exportText (fun _ => (true, true)) (.node ⟨⟨1, 5, 0⟩, [⟨b!"k<", some b!"v"⟩]⟩ []) =
    b!"[\n  {\n    \"ID\": {\n      \"Trace\": \"0000000000000001\",\n      \"Span\": \"0000000000000005\",\n      \"Parent\": \"0000000000000000\"\n    },\n    \"Annotations\": [\n      {\n        \"Key\": \"k\\u003c\",\n        \"Value\": \"dg==\"\n      }\n    ],\n    \"Sub\": null\n  }\n]" := by decide_cbv

/-- It is read back. -/
example : (parseJSON b!" [{\"id\":{\"trace\":1,\"span\":\"5\"},\"annotations\":[{\"key\":\"a\\u00e9\\n\"}]}] ").bind decodeSub =
    some [.node ⟨⟨1, 5, 0⟩, [⟨[97, 195, 169, 10], none⟩]⟩ []] := by rfl

example : (serveUploadBody MemStore.new b!"[{]").2 = .badJSON := by rfl

/-- The text of a stored trace with two spans, uploaded to another server. -/
example (ms ms' : MemStore) (h : MemStore.new.run uploadSource = some ms) (h' : MemStore.new.run uploadTarget = some ms')
    (nils : SpanID → Bool × Bool) :
    ∃ ms'', serveUploadBody ms' (exportText nils uploadTree) = (ms'', .ok) ∧ ms''.view 1 = .found uploadTree := by
  have e : (MemStore.new.run uploadSource).map (fun ms => ms.view 1) = some (.found uploadTree) := by decide_cbv
  have e' : (MemStore.new.run uploadTarget).map (fun ms => ms.view 1) = some .notFound := by decide_cbv
  rw [h] at e
  rw [h'] at e'
  exact page_text_reproduces h h' (Option.some.inj e) (Option.some.inj e') (by unfold UTF8Keys; decide) (by unfold TrueRoot; decide) nils

end Appdash
