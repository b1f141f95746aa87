import Verif.Model.TraceString
import Verif.Properties.JsonText

/-!
# C110: the printed forms of traces and spans
-/

namespace Appdash

open Spec

mutual
theorem ofTree_inj : ∀ a b : Tree, PTree.ofTree a = PTree.ofTree b → a = b
  | .node s ts, .node s' ts', h => by
    simp only [PTree.ofTree, PTree.node.injEq] at h
    rw [h.1, ofTrees_inj ts ts' h.2]
theorem ofTrees_inj : ∀ a b : List Tree, PTree.ofTrees a = PTree.ofTrees b → a = b
  | [], [], _ => rfl
  | [], t :: ts, h => by simp [PTree.ofTrees] at h
  | t :: ts, [], h => by simp [PTree.ofTrees] at h
  | t :: ts, t' :: ts', h => by
    simp only [PTree.ofTrees, List.cons.injEq] at h
    rw [ofTree_inj t t' h.1, ofTrees_inj ts ts' h.2]
end

/-- **C110** (traces).  The text that `Trace.String` returns is JSON; whoever decodes it into a `Trace` gets the trace back, if its
keys are valid UTF-8. -/
theorem trace_string_read (nils : SpanID → Bool × Bool) {tr : Tree} (hk : UTF8Keys tr) :
    (∃ v, IsJSON (tr.string nils) v) ∧ (parseJSON (tr.string nils)).bind decodeTrace = some (PTree.ofTree tr) := by
  constructor
  · exact ⟨_, [], _, [], Blank.nil, Blank.nil, print_text Layout.indent_blank 0 (traceJSON nils tr), by simp [Tree.string]⟩
  · have := parseJSON_print Layout.indent_blank (traceJSON nils tr)
    rw [clean_trace] at this
    rw [Tree.string, this]
    exact decode_link nils tr hk

/-- **C110** (traces).  Different traces are printed differently, down to the annotations and their order. -/
theorem trace_string_injective {nils nils' : SpanID → Bool × Bool} {a b : Tree} (ha : UTF8Keys a) (hb : UTF8Keys b)
    (h : a.string nils = b.string nils') : a = b := by
  have h1 := (trace_string_read nils ha).2
  have h2 := (trace_string_read nils' hb).2
  rw [h, h2] at h1
  exact (ofTree_inj _ _ (Option.some.inj h1)).symm

/-- **C110** (spans).  The same holds for `Span.String`. -/
theorem span_string_read (isNil : Bool) {s : Span} (hk : ∀ a ∈ s.annotations, cleanUTF8 a.key = a.key) :
    (∃ v, IsJSON (s.string isNil) v) ∧ (parseJSON (s.string isNil)).bind decodeTrace = some (.node s []) := by
  constructor
  · exact ⟨_, [], _, [], Blank.nil, Blank.nil, print_text Layout.indent_blank 0 (spanJSON isNil s), by simp [Span.string]⟩
  · have := parseJSON_print Layout.indent_blank (spanJSON isNil s)
    have f1 : isField b!"ID" b!"ID" = true := by decide
    have f2 : isField b!"ID" b!"Annotations" = false := by decide
    have f3 : isField b!"Annotations" b!"Annotations" = true := by decide
    have hc : s.annotations.map cleanAnn = s.annotations := by
      conv => rhs; rw [← List.map_id s.annotations]
      exact List.map_congr_left fun a ha => by simp only [cleanAnn, hk a ha, id]
    have he : (spanJSON isNil s).clean =
        .obj [(b!"ID", encodeSpanID s.id), (b!"Annotations", encodeSlice isNil (s.annotations.map encodeAnnotation))] := by
      have k1 : cleanUTF8 b!"ID" = b!"ID" := by decide
      have k2 : cleanUTF8 b!"Annotations" = b!"Annotations" := by decide
      simp only [spanJSON, JVal.clean, JVal.cleanMembers, clean_spanID, clean_slice, clean_annotations, k1, k2]
    rw [Span.string, this, he]
    have hr : (s.annotations.map JAnn.ofAnn).map JAnn.result = s.annotations := by
      rw [List.map_map]
      exact (List.map_congr_left fun a _ => JAnn.result_ofAnn a).trans (List.map_id _)
    simp only [Option.bind_some, decodeTrace, decodeTraceInto, JTrace.id, JTrace.annotations, JTrace.sub, decodeTraceMembers, f1, f2, f3,
      if_true, Bool.false_eq_true, if_false, decodeSpanID_encode, decodeAnnotations_encode, hc, Option.map_some, JTrace.result, JTrace.results,
      hr]

/-- **C110** (spans).  Different spans are printed differently. -/
theorem span_string_injective {n n' : Bool} {a b : Span} (ha : ∀ x ∈ a.annotations, cleanUTF8 x.key = x.key)
    (hb : ∀ x ∈ b.annotations, cleanUTF8 x.key = x.key) (h : a.string n = b.string n') : a = b := by
  have h1 := (span_string_read n ha).2
  have h2 := (span_string_read n' hb).2
  rw [h, h2] at h1
  simpa using h1.symm

/-- The trace used as an example: two spans, an annotation with quotes and a line feed. -/
def printedTree : Tree := .node ⟨⟨1, 5, 0⟩, [⟨b!"a\n\"", some b!"v"⟩]⟩ [.node ⟨⟨1, 7, 5⟩, []⟩ []]

example : UTF8Keys printedTree := by
  intro sp hsp a ha
  simp only [printedTree, Tree.spans, Tree.spansList, List.append_nil, List.mem_cons, List.not_mem_nil, or_false] at hsp
  rcases hsp with rfl | rfl
  · simp only [List.mem_cons, List.not_mem_nil, or_false] at ha
    subst ha; decide
  · simp at ha

example : Span.string true ⟨⟨1, 7, 5⟩, []⟩ =
    b!"{\n  \"ID\": {\n    \"Trace\": \"0000000000000001\",\n    \"Span\": \"0000000000000007\",\n    \"Parent\": \"0000000000000005\"\n  },\n  \"Annotations\": null\n}" := by decide_cbv

/-- Keys that are not UTF-8 are not told apart. -/
example : Span.string true ⟨⟨1, 7, 5⟩, [⟨[255], none⟩]⟩ = Span.string true ⟨⟨1, 7, 5⟩, [⟨[254], none⟩]⟩ := by decide_cbv

end Appdash
