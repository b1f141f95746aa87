import Verif.Proofs.TreeString
import Verif.Proofs.Causal

/-!
# C106: `TreeString` shows the trace
-/

namespace Appdash
open Spec

/-- The full statement of **C106**: traces with the same text have the same content, as far as it is shown. -/
def TreeTextFaithful : Prop := ∀ t u : Tree, treeString t = treeString u → shown t = shown u

/-- It is false, in every trace: any subtree `c` below a root can be forged by the value of the root's last annotation, which the client
chooses.  The trace on the right has no spans below the root, and the same text. -/
theorem tree_text_forged (id : SpanID) (as : List Annotation) (k v : Bytes) (c : Tree) :
    ∃ forged, treeString (.node ⟨id, as ++ [⟨k, some v⟩]⟩ [c]) = treeString (.node ⟨id, as ++ [⟨k, some forged⟩]⟩ []) := by
  obtain ⟨x, hx⟩ : ∃ x, treeStringAt 1 c = x ++ [10] := by
    rw [treeStringAt_lines 0]
    have hne : linesBelow 1 c ≠ [] := by cases c; simp [linesBelow]
    refine ⟨unlines (linesBelow 1 c).dropLast ++ (linesBelow 1 c).getLast hne, ?_⟩
    conv_lhs => rw [← List.dropLast_append_getLast hne, unlines_append]
    simp [unlines]
  refine ⟨v ++ [10] ++ x, ?_⟩
  simp [treeString, treeStringAt, treeStringList, hx, annotationLine, Annotation.valueString, spanLine]

theorem tree_text_not_faithful : ¬ TreeTextFaithful := by
  intro h
  obtain ⟨forged, e⟩ := tree_text_forged ⟨1, 5, 0⟩ [] b!"k" b!"v" (.node ⟨⟨1, 6, 5⟩, []⟩ [])
  have := h _ _ e
  simp [shown, shownBelowList] at this

/-- **C106** for annotations without line breaks whose keys contain no equals sign: two traces have the same text exactly if they have the
same trace ID, spans with the same IDs and parents in the same tree, and the same keys and values in the same order. -/
theorem tree_text_iff_partial {t u : Tree} (ht : OneLineAnnotations t) (hu : OneLineAnnotations u) :
    treeString t = treeString u ↔ shown t = shown u :=
  ⟨treeString_inj ht hu, fun h => by rw [← treeString_shown t, h, treeString_shown u]⟩

/-- The condition on keys is needed: a key with an equals sign is confused with another annotation. -/
theorem tree_text_key_confused :
    treeString (.node ⟨⟨1, 5, 0⟩, [⟨b!"a = b", some b!"c"⟩]⟩ []) = treeString (.node ⟨⟨1, 5, 0⟩, [⟨b!"a", some b!"b = c"⟩]⟩ []) := rfl

/-- **C106** for traces as programs make them (`CausalTree`, C74): if there are spans below the root, the text determines the whole trace,
with the root's IDs, except that nil values look like empty ones. -/
theorem tree_text_determines_partial {t u : Tree} (hct : CausalTree t) (hcu : CausalTree u) (hsub : t.sub ≠ [])
    (ht : OneLineAnnotations t) (hu : OneLineAnnotations u) (h : treeString t = treeString u) :
    withShownValues t = withShownValues u := by
  have hs := treeString_inj ht hu h
  cases t with
  | node s ts =>
    cases u with
    | node s' us =>
      simp only [shown, Tree.node.injEq, Span.mk.injEq, SpanID.mk.injEq, and_true] at hs
      obtain ⟨⟨h1, h2⟩, h3⟩ := hs
      cases ts with
      | nil => exact absurd rfl hsub
      | cons c ts =>
        cases us with
        | nil => simp [shownBelowList] at h3
        | cons d us =>
          have tt := hct.trace
          have tu := hcu.trace
          simp only [Tree.span] at tt tu
          have h5 := shownBelowList_values (τ := s.id.trace) (fun sp hsp => tt sp (by simp [Tree.spans, hsp]))
            (fun sp hsp => by rw [h1]; exact tu sp (by simp [Tree.spans, hsp])) h3
          have p1 := hct.edge (p := s) (c := c.span) (by simp [Tree.edges])
          have p2 := hcu.edge (p := s') (c := d.span) (by simp [Tree.edges])
          have hcd : c.span.id.parent = d.span.id.parent := by
            cases c; cases d
            simp only [shownBelowList, shownBelow, List.cons.injEq, Tree.node.injEq, Span.mk.injEq, SpanID.mk.injEq] at h3
            exact h3.1.1.1.2.2
          obtain ⟨g1, g2, r1⟩ := hct.root
          obtain ⟨g3, g4, r2⟩ := hcu.root
          have z1 : s.id.parent = 0 := by
            have : s.id = newRootSpanID g1 g2 := r1
            rw [this]; rfl
          have z2 : s'.id.parent = 0 := by
            have : s'.id = newRootSpanID g3 g4 := r2
            rw [this]; rfl
          have : s.id = s'.id := by
            have q : s.id.span = s'.id.span := by
              rw [← p1.2.2.1, ← p2.2.2.1, hcd]
            cases hs : s.id; cases hs' : s'.id
            simp_all
          rw [withShownValues, withShownValues, h2, h5, this]

/-- A trace with three levels, one annotation with a space and one with nil: it meets the conditions, and its text is as shown. -/
def sampleTreeText : Tree :=
  .node ⟨⟨0x1a, 5, 0⟩, [⟨b!"Name", some b!"home page"⟩]⟩
    [.node ⟨⟨0x1a, 6, 5⟩, [⟨b!"_schema:name", none⟩]⟩ [.node ⟨⟨0x1a, 0xf0, 6⟩, [⟨b!"k", some b!"v = w"⟩]⟩ []], .node ⟨⟨0x1a, 8, 5⟩, []⟩ []]

example : OneLineAnnotations sampleTreeText := by unfold OneLineAnnotations; decide

example : CausalTree sampleTreeText ∧ sampleTreeText.sub ≠ [] := by
  refine ⟨⟨⟨0x1a, 5, rfl⟩, ?_, by decide, by decide⟩, by decide⟩
  intro e he
  simp only [sampleTreeText, Tree.edges, Tree.edgesList, List.map_cons, List.map_nil, List.append_nil, List.mem_append, List.mem_cons,
    List.not_mem_nil, or_false, Tree.span] at he
  rcases he with (rfl | rfl) | rfl
  · exact ⟨6, rfl⟩
  · exact ⟨8, rfl⟩
  · exact ⟨0xf0, rfl⟩

example : treeString sampleTreeText =
    b!"+ Trace 1a\n| Name = home page\n|----+ Span 6 (parent 5)\n|    | _schema:name = \n|    ----+ Span f0 (parent 6)\n|        | k = v = w\n|----+ Span 8 (parent 5)\n" := by
  decide +kernel

end Appdash
