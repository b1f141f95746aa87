import Verif.Spec.TracesScript
import Verif.Proofs.JsonText
import Verif.Proofs.Query
import Verif.Spec.Pages

/-! # The menu "Traces" -/

namespace Appdash
open Spec

theorem trace_box_id (nils : SpanID → Bool × Bool) (tr : Tree) :
    parseJSON (tr.string nils) = some (encodeTrace nils tr) ∧ traceOfJSON (encodeTrace nils tr) = some tr.span.id.trace.toText := by
  constructor
  · rw [Tree.string, parseJSON_print Layout.indent_blank, clean_trace]
  · cases tr with
    | node s ts => rfl

/-- The boxes of traces with given ticks. -/
def boxesOf (nils : SpanID → Bool × Bool) (trs : List Tree) (f : Nat → Bool) : List TraceBox :=
  trs.zipIdx.map fun t => ⟨t.1.string nils, f t.2⟩

theorem boxesOf_length (nils : SpanID → Bool × Bool) (trs : List Tree) (f : Nat → Bool) : (boxesOf nils trs f).length = trs.length := by
  simp [boxesOf]

theorem boxesOf_getElem? (nils : SpanID → Bool × Bool) (trs : List Tree) (f : Nat → Bool) (i : Nat) :
    (boxesOf nils trs f)[i]? = trs[i]?.map fun t => ⟨t.string nils, f i⟩ := by
  simp only [boxesOf, List.getElem?_map, List.getElem?_zipIdx, Option.map_map]
  cases trs[i]? with
  | none => rfl
  | some t => simp

theorem not_even (n : Nat) : (!decide (n % 2 = 0)) = decide ((n + 1) % 2 = 0) := by
  rcases Nat.mod_two_eq_zero_or_one n with h | h
  · have : ¬ (n + 1) % 2 = 0 := by omega
    rw [h, decide_eq_false this]; rfl
  · have : (n + 1) % 2 = 0 := by omega
    rw [h, decide_eq_true this]; rfl

theorem load_boxes (nils : SpanID → Bool × Bool) (trs : List Tree) : (TracesPage.load nils trs).boxes = boxesOf nils trs fun _ => true := by
  apply List.ext_getElem?
  intro i
  rw [boxesOf_getElem?]
  simp [TracesPage.load]

theorem clicks_boxes (nils : SpanID → Bool × Bool) (trs : List Tree) (clicks : List TracesClick) :
    (clicks.foldl TracesPage.click (.load nils trs)).boxes = boxesOf nils trs (tickedAfter clicks) ∧
      (clicks.foldl TracesPage.click (.load nils trs)).checked = decide (clicks.count .toggle % 2 = 0) := by
  suffices h : ∀ r : List TracesClick, (r.reverse.foldl TracesPage.click (.load nils trs)).boxes = boxesOf nils trs (tickedAfter r.reverse) ∧
      (r.reverse.foldl TracesPage.click (.load nils trs)).checked = decide (r.reverse.count .toggle % 2 = 0) by
    have := h clicks.reverse
    rwa [List.reverse_reverse] at this
  intro r
  induction r with
  | nil =>
    refine ⟨?_, rfl⟩
    rw [List.reverse_nil, List.foldl_nil, load_boxes]
    rfl
  | cons c r ih =>
    rw [List.reverse_cons, List.foldl_append]
    generalize hp : r.reverse.foldl TracesPage.click (.load nils trs) = p at ih
    obtain ⟨ih1, ih2⟩ := ih
    simp only [List.foldl_cons, List.foldl_nil]
    cases c with
    | box i =>
      refine ⟨?_, ?_⟩
      · simp only [TracesPage.click, ih1]
        apply List.ext_getElem?
        intro j
        rw [List.getElem?_modify, boxesOf_getElem?, boxesOf_getElem?]
        cases trs[j]? with
        | none => simp
        | some t =>
          simp only [Option.map_some, Option.some.injEq]
          have e : tickedAfter (r.reverse ++ [TracesClick.box i]) j = if i = j then !tickedAfter r.reverse j else tickedAfter r.reverse j := by
            simp only [tickedAfter, List.count_append, List.reverse_append, List.reverse_cons, List.reverse_nil, List.nil_append,
              List.cons_append, List.reverse_reverse]
            rw [List.takeWhile_cons, if_pos (by simp), List.count_cons]
            by_cases h : i = j
            · subst h
              simp only [List.count_cons, List.count_nil, beq_self_eq_true, if_true]
              rw [show (TracesClick.box i == TracesClick.toggle) = false from rfl, not_even]
              simp only [Bool.false_eq_true, if_false, Nat.add_zero, Nat.add_assoc]
            · have : (TracesClick.box i == TracesClick.box j) = false := by simp [h]
              simp [this, h]
          rw [e]
          split
          · rfl
          · rfl
      · simp only [TracesPage.click, ih2]
        simp
    | toggle =>
      have ec : (r.reverse ++ [TracesClick.toggle]).count .toggle = r.reverse.count .toggle + 1 := by simp
      have e2 := not_even (r.reverse.count TracesClick.toggle)
      refine ⟨?_, ?_⟩
      · simp only [TracesPage.click, ih1, ih2]
        apply List.ext_getElem?
        intro j
        rw [List.getElem?_map, boxesOf_getElem?, boxesOf_getElem?]
        cases trs[j]? with
        | none => rfl
        | some t =>
          simp only [Option.map_some, Option.some.injEq, TraceBox.mk.injEq, true_and]
          rw [e2]
          simp only [tickedAfter, ec, List.reverse_append, List.reverse_cons, List.reverse_nil, List.nil_append, List.cons_append]
          rw [List.takeWhile_cons, if_neg (by simp)]
          simp
      · simp only [TracesPage.click, ih2, ec, e2]

theorem selected_eq (nils : SpanID → Bool × Bool) (trs : List Tree) (clicks : List TracesClick) :
    (clicks.foldl TracesPage.click (.load nils trs)).selected = some ((selectedTraces trs clicks).map (encodeTrace nils)) := by
  rw [TracesPage.selected, (clicks_boxes nils trs clicks).1, boxesOf, selectedTraces]
  generalize trs.zipIdx = l
  induction l with
  | nil => rfl
  | cons x l ih =>
    simp only [List.map_cons, List.filter_cons]
    split
    · rw [List.mapM_cons, (trace_box_id nils x.1).1, ih]
      simp
    · exact ih

theorem ids_eq (nils : SpanID → Bool × Bool) : ∀ trs : List Tree,
    (trs.map (encodeTrace nils)).mapM traceOfJSON = some (trs.map fun t => t.span.id.trace.toText)
  | [] => rfl
  | t :: trs => by
    rw [List.map_cons, List.mapM_cons, (trace_box_id nils t).2, ids_eq nils trs]
    rfl

theorem jsJoin_eq : ∀ l : List Bytes, jsJoin l = commaJoin l
  | [] => rfl
  | [_] => rfl
  | s :: t :: l => by
    rw [jsJoin, commaJoin, jsJoin_eq (t :: l)]
    · simp
    · simp
    · simp

theorem href_eq (nils : SpanID → Bool × Bool) (trs : List Tree) (clicks : List TracesClick) (base : Bytes) :
    (clicks.foldl TracesPage.click (.load nils trs)).aggregateHref base =
      some (if (selectedTraces trs clicks).length = trs.length then base ++ b!"aggregate"
        else base ++ b!"aggregate?selection=" ++ commaJoin ((selectedTraces trs clicks).map fun t => t.span.id.trace.toText)) := by
  rw [TracesPage.aggregateHref, selected_eq]
  simp only [(clicks_boxes nils trs clicks).1, boxesOf_length, List.length_map]
  split
  · rfl
  · rw [ids_eq]
    simp only [jsJoin_eq]

theorem selectedTraces_sublist (trs : List Tree) (clicks : List TracesClick) : (selectedTraces trs clicks).Sublist trs := by
  have : ((trs.zipIdx.filter fun t => tickedAfter clicks t.2).map Prod.fst).Sublist (trs.zipIdx.map Prod.fst) := List.filter_sublist.map _
  rwa [show trs.zipIdx.map Prod.fst = trs from by simp] at this

/-- What the query of a link is. -/
theorem requestQuery_eq (base path query : Bytes) (hb : 63 ∉ base ∧ 35 ∉ base) (hp : 63 ∉ path ∧ 35 ∉ path) (hq : 35 ∉ query) :
    requestQuery (base ++ path ++ 63 :: query) = query ∧ requestQuery (base ++ path) = [] := by
  have h1 : cutAt 35 (base ++ path ++ 63 :: query) = (base ++ path ++ 63 :: query, []) :=
    (cutAt_iff _ _ _ _).2 ⟨by simp [hb.2, hp.2, hq], .inr ⟨rfl, rfl⟩⟩
  have h2 : cutAt 35 (base ++ path) = (base ++ path, []) := (cutAt_iff _ _ _ _).2 ⟨by simp [hb.2, hp.2], .inr ⟨rfl, rfl⟩⟩
  have h3 : cutAt 63 (base ++ path ++ 63 :: query) = (base ++ path, query) := (cutAt_iff _ _ _ _).2 ⟨by simp [hb.1, hp.1], .inl rfl⟩
  have h4 : cutAt 63 (base ++ path) = (base ++ path, []) := (cutAt_iff _ _ _ _).2 ⟨by simp [hb.1, hp.1], .inr ⟨rfl, rfl⟩⟩
  simp only [requestQuery, h1, h2, h3, h4, and_self]

theorem noHash (ids : List ID) : (35 : UInt8) ∉ commaJoin (ids.map ID.toText) := by
  induction ids with
  | nil => simp [commaJoin]
  | cons i ids ih =>
    have hi : (35 : UInt8) ∉ i.toText := by
      intro h
      have := toText_lower _ _ h
      unfold Spec.IsLowerHex at this
      revert this
      decide
    cases ids with
    | nil => simpa [commaJoin] using hi
    | cons j js =>
      simp only [List.map_cons, commaJoin, List.mem_append, List.mem_cons, not_or] at ih ⊢
      exact ⟨hi, by decide, ih⟩

/-- The query of the link to selected traces. -/
theorem selection_query (base : Bytes) (hb : 63 ∉ base ∧ 35 ∉ base) (ids : List ID) :
    requestQuery (base ++ b!"aggregate?selection=" ++ commaJoin (ids.map ID.toText)) =
        b!"selection" ++ 61 :: commaJoin (ids.map ID.toText) ∧
      requestQuery (base ++ b!"aggregate") = [] := by
  have h := requestQuery_eq base b!"aggregate" (b!"selection" ++ 61 :: commaJoin (ids.map ID.toText)) hb (by decide)
    (by
      simp only [List.mem_append, List.mem_cons, not_or]
      exact ⟨by decide, by decide, noHash ids⟩)
  refine ⟨?_, h.2⟩
  rw [← h.1]
  simp

end Appdash
