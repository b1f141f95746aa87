import Verif.Proofs.TimelineScript
import Verif.Proofs.Span
import Verif.Proofs.Event

/-!
# C96: the timeline's menu
-/

namespace Appdash

open Spec

/-! ## Any data -/

/-- **C96** (any data).  The script for a menu entry ends if and only if following the parent links of the items never leads in a
circle to an item that it reaches. -/
theorem menu_ends_iff (data : List TimelineItem) (mark : TimelineItem → Bool) (p : Bytes) (vis : Nat → Bool) :
    (∃ n vis', walkChildren data mark n p vis = some vis') ↔
      ∀ j jt, Under data p j → data[j]? = some jt → ¬ Under data jt.spanID j := by
  constructor
  · rintro ⟨n, vis', h⟩ j jt hu hj hc
    rw [walk_cycle hu hj hc n vis] at h
    cases h
  · intro h
    exact ⟨_, _, walk_spec data mark (countUnder data p + 1) p vis (Nat.lt_succ_self _) h⟩

/-- **C96** (any data).  If there are `m` items, then a recursion of depth `m + 1` is enough, and the script sets the flags of exactly
the items from which the parent links lead to the chosen span. -/
theorem menu_follows_links (data : List TimelineItem) (mark : TimelineItem → Bool) (p : Bytes) (vis : Nat → Bool)
    (hac : ∀ j jt, Under data p j → data[j]? = some jt → ¬ Under data jt.spanID j) {n : Nat} (hn : data.length < n) :
    ∃ vis', walkChildren data mark n p vis = some vis' ∧
      (∀ i it, Under data p i → data[i]? = some it → vis' i = mark it) ∧ ∀ i, ¬ Under data p i → vis' i = vis i := by
  refine ⟨_, walk_spec data mark n p vis (Nat.lt_of_le_of_lt (countUnder_le data p) hn) hac, ?_, ?_⟩
  · intro i it hu hi
    unfold marked
    rw [if_pos hu, hi]
  · intro i hu
    unfold marked
    rw [if_neg hu]

/-! ## Stored traces -/

/-- **C96**, the full statement: for every item of the timeline of every stored trace, Show Children and Hide Children end, set
the flags of the items of all spans below the item's span, and change no other flag. -/
def MenuExact : Prop :=
  ∀ (ops : List StoreOp) (ms : MemStore), MemStore.new.run ops = some ms → ∀ (t : ID) (tr : Tree), ms.view t = .found tr →
    ∀ (env : ViewEnv) (items : List TimelineItem), d3timeline env tr = some (.ok items) →
      ∀ q ∈ tr.spans, ∀ (visible : Bool) (vis : Nat → Bool),
        ∃ n vis', setChildrenVisible items n q.id.span.toText visible vis = some vis' ∧
          (∀ i, ItemBelow tr q items i → vis' i = visible) ∧ ∀ i, ¬ ItemBelow tr q items i → vis' i = vis i

/-- Two spans, each of which claims the other one as its parent. -/
def circularSpans : List StoreOp :=
  [.collect ⟨1, 5, 6⟩ (namedSpan ⟨1, 5, 6⟩ b!"a" 0 9).annotations, .collect ⟨1, 6, 5⟩ (namedSpan ⟨1, 6, 5⟩ b!"b" 1 3).annotations]

/-- What is shown for them. -/
def circularTree : Tree := .node (namedSpan ⟨1, 6, 5⟩ b!"b" 1 3) [.node (namedSpan ⟨1, 5, 6⟩ b!"a" 0 9) []]

set_option maxRecDepth 3000 in
theorem circular_view : (MemStore.new.run circularSpans).map (fun ms => ms.view 1) = some (.found circularTree) := by decide_cbv

set_option maxRecDepth 3000 in
theorem circular_items : (d3timeline sampleEnv circularTree).map (fun r => r.toOption.map fun items => items.map fun i =>
    (i.spanID, i.parentSpanID)) = some (some [((6 : ID).toText, (5 : ID).toText), ((5 : ID).toText, (6 : ID).toText)]) := by decide_cbv

/-- The items of a timeline, from their IDs. -/
theorem items_of_ids {env : ViewEnv} {tr : Tree} {l : List (Bytes × Bytes)} (h : (d3timeline env tr).map (fun r => r.toOption.map fun items =>
    items.map fun i => (i.spanID, i.parentSpanID)) = some (some l)) :
    ∃ items, d3timeline env tr = some (.ok items) ∧ items.map (fun i => (i.spanID, i.parentSpanID)) = l := by
  generalize d3timeline env tr = r at h
  match r with
  | none => simp at h
  | some (.error _) => simp [Except.toOption] at h
  | some (.ok items) =>
    refine ⟨items, rfl, ?_⟩
    simpa [Except.toOption] using h

/-- **C96**, the gap.  There is a stored trace with a timeline on which the script for the menu never ends: not with any depth of the
recursion. -/
theorem menu_endless : ∃ (ops : List StoreOp) (ms : MemStore) (tr : Tree) (items : List TimelineItem) (q : Span),
    MemStore.new.run ops = some ms ∧ ms.view 1 = .found tr ∧ d3timeline sampleEnv tr = some (.ok items) ∧ q ∈ tr.spans ∧
      ∀ n visible vis, setChildrenVisible items n q.id.span.toText visible vis = none := by
  obtain ⟨ms, hms, hv⟩ := Option.map_eq_some_iff.1 circular_view
  obtain ⟨items, hi, hl⟩ := items_of_ids circular_items
  refine ⟨circularSpans, ms, circularTree, items, circularTree.span, hms, hv, hi, span_mem_spans _, fun n visible vis => ?_⟩
  match items, hl with
  | [a, b], hl =>
    simp only [List.map_cons, List.map_nil, List.cons.injEq, Prod.mk.injEq, and_true] at hl
    obtain ⟨⟨a1, a2⟩, b1, b2⟩ := hl
    have h1 : Under [a, b] (6 : ID).toText 1 := .child (it := b) rfl b2
    have h0 : Under [a, b] (6 : ID).toText 0 := .deeper (it := a) (jt := b) h1 rfl rfl (a2.trans b1.symm)
    exact walk_cycle (jt := a) h0 rfl (by rw [a1]; exact h0) n vis

theorem menu_exact_false : ¬ MenuExact := by
  intro H
  obtain ⟨ops, ms, tr, items, q, h1, h2, h3, h4, h5⟩ := menu_endless
  obtain ⟨n, vis', h, -⟩ := H ops ms h1 1 tr h2 sampleEnv items h3 q h4 false fun _ => true
  rw [h5] at h
  cases h

/-- A root and a span whose declared parent was never collected. -/
def orphanSpans : List StoreOp :=
  [.collect ⟨1, 5, 0⟩ (namedSpan ⟨1, 5, 0⟩ b!"a" 0 9).annotations, .collect ⟨1, 6, 9⟩ (namedSpan ⟨1, 6, 9⟩ b!"b" 1 3).annotations]

/-- What is shown for them. -/
def orphanTree : Tree := .node (namedSpan ⟨1, 5, 0⟩ b!"a" 0 9) [.node (namedSpan ⟨1, 6, 9⟩ b!"b" 1 3) []]

set_option maxRecDepth 3000 in
theorem orphan_view : (MemStore.new.run orphanSpans).map (fun ms => ms.view 1) = some (.found orphanTree) := by decide_cbv

set_option maxRecDepth 3000 in
theorem orphan_items : (d3timeline sampleEnv orphanTree).map (fun r => r.toOption.map fun items => items.map fun i =>
    (i.spanID, i.parentSpanID)) = some (some [((5 : ID).toText, []), ((6 : ID).toText, (9 : ID).toText)]) := by decide_cbv

/-- **C96**, the other gap.  A span whose declared parent was never collected is shown below the root, but Hide Children on the root
does not hide it. -/
theorem orphan_not_hidden : ∃ (ops : List StoreOp) (ms : MemStore) (tr : Tree) (items : List TimelineItem),
    MemStore.new.run ops = some ms ∧ ms.view 1 = .found tr ∧ d3timeline sampleEnv tr = some (.ok items) ∧
      ItemBelow tr tr.span items 1 ∧
      ∀ n, setChildrenVisible items (n + 1) tr.span.id.span.toText false (fun _ => true) = some fun _ => true := by
  obtain ⟨ms, hms, hv⟩ := Option.map_eq_some_iff.1 orphan_view
  obtain ⟨items, hi, hl⟩ := items_of_ids orphan_items
  refine ⟨orphanSpans, ms, orphanTree, items, hms, hv, hi, ?_⟩
  match items, hl with
  | [a, b], hl =>
    simp only [List.map_cons, List.map_nil, List.cons.injEq, Prod.mk.injEq, and_true] at hl
    obtain ⟨⟨a1, a2⟩, b1, b2⟩ := hl
    refine ⟨⟨b, namedSpan ⟨1, 6, 9⟩ b!"b" 1 3, rfl, .child ?_, b1⟩, fun n => ?_⟩
    · rw [edges_def]
      simp [orphanTree, Tree.sub, Tree.span]
    · have e1 : ¬ a.parentSpanID = (5 : ID).toText := by rw [a2]; decide
      have e2 : ¬ b.parentSpanID = (5 : ID).toText := by rw [b2]; decide
      show walkChildren [a, b] _ (n + 1) (5 : ID).toText _ = _
      simp only [walkChildren, List.zipIdx_cons, List.zipIdx_nil, List.foldlM_cons, List.foldlM_nil, ne_eq, e1, e2, not_false_eq_true,
        if_true]
      rfl

/-- What the menu does on the timeline of a stored trace.  See `menu_exact_partial`. -/
theorem menu_on_trace {ops : List StoreOp} {ms : MemStore} (h : MemStore.new.run ops = some ms) {t : ID} {tr : Tree}
    (hv : ms.view t = .found tr) (hz : ∀ s ∈ tr.spans, s.id.span ≠ 0) (hroot : ∀ s ∈ tr.spans, s.id.span ≠ tr.span.id.parent)
    {env : ViewEnv} {items : List TimelineItem} (hi : d3timeline env tr = some (.ok items)) {q : Span} (hq : q ∈ tr.spans)
    (ho : q ≠ tr.span ∨ ∀ s ∈ tr.spans, s ≠ tr.span → ∃ p ∈ tr.spans, p.id.span = s.id.parent)
    (mark : TimelineItem → Bool) (vis : Nat → Bool) {n : Nat} (hn : items.length < n) :
    ∃ vis', walkChildren items mark n q.id.span.toText vis = some vis' ∧
      (∀ i it, ItemBelow tr q items i → items[i]? = some it → vis' i = mark it) ∧ ∀ i, ¬ ItemBelow tr q items i → vis' i = vis i := by
  have W := view_wellPlaced h hv
  obtain ⟨vis', h1, h2, h3⟩ := menu_follows_links items mark q.id.span.toText vis
    (fun j jt _ hj => no_cycle W hroot hi hj) hn
  have key : ∀ i, Under items q.id.span.toText i ↔ ItemBelow tr q items i := by
    intro i
    constructor
    · intro hu
      have hlt := hu.lt
      have hit : items[i]? = some items[i] := List.getElem?_eq_getElem hlt
      obtain ⟨d, s, hs, hio, hb⟩ := under_below W hroot hi hq hu hit
      exact ⟨_, s, hit, hb, hio.spanID⟩
    · rintro ⟨it, s, hit, hb, e⟩
      obtain ⟨d, s', hs', hio⟩ := item_span hi hit
      have : s' = s := span_unique W.nodup (mem_shown env tr 0 _ hs') (below_mem hb).2 (toText_inj (hio.spanID.symm.trans e))
      subst this
      exact below_under W hi hz ho hb hs' hit e
  exact ⟨vis', h1, fun i it hb hit => h2 i it ((key i).2 hb) hit, fun i hb => h3 i fun hu => hb ((key i).1 hu)⟩

/-- **C96**, proved part: in every stored trace without a span with ID zero, and whose root's declared parent is not in the trace, Show
Children and Hide Children end, set the flags of the items of all spans below the item's span, and change no other flag; for the root
itself provided that the declared parents of all other spans are in the trace. -/
theorem menu_exact_partial {ops : List StoreOp} {ms : MemStore} (h : MemStore.new.run ops = some ms) {t : ID} {tr : Tree}
    (hv : ms.view t = .found tr) (hz : ∀ s ∈ tr.spans, s.id.span ≠ 0) (hroot : ∀ s ∈ tr.spans, s.id.span ≠ tr.span.id.parent)
    {env : ViewEnv} {items : List TimelineItem} (hi : d3timeline env tr = some (.ok items)) {q : Span} (hq : q ∈ tr.spans)
    (ho : q ≠ tr.span ∨ ∀ s ∈ tr.spans, s ≠ tr.span → ∃ p ∈ tr.spans, p.id.span = s.id.parent)
    (visible : Bool) (vis : Nat → Bool) {n : Nat} (hn : items.length < n) :
    ∃ vis', setChildrenVisible items n q.id.span.toText visible vis = some vis' ∧
      (∀ i, ItemBelow tr q items i → vis' i = visible) ∧ ∀ i, ¬ ItemBelow tr q items i → vis' i = vis i := by
  obtain ⟨vis', h1, h2, h3⟩ := menu_on_trace h hv hz hroot hi hq ho (fun _ => visible) vis hn
  refine ⟨vis', h1, fun i hb => ?_, h3⟩
  have ⟨it, s, hit, _⟩ := hb
  exact h2 i it hb hit

/-- A filter in quotation marks is strict if neither key nor value contains a colon. -/
theorem strict_filter {k v : Bytes} (hk : 58 ∉ k) (hv : 58 ∉ v) : strictFilter (k ++ 58 :: (34 :: (v ++ [34]))) = some (k, v) := by
  have h2 : splitOn 58 (34 :: (v ++ [34])) = [34 :: (v ++ [34])] := splitOn_no_sep _ _ (by simp [hv])
  have h1 : splitOn 58 (k ++ 58 :: (34 :: (v ++ [34]))) = [k, 34 :: (v ++ [34])] := by
    rw [splitOn_append _ _ _ hk, h2]
  unfold strictFilter
  rw [h1]
  have e : (34 :: (v ++ [34])).getLast? = some (34 : UInt8) := by
    rw [← List.cons_append, List.getLast?_append]; rfl
  simp [e]

/-- **C96** (filters).  Under the same conditions, filtering by `key:"value"`, without further colons, shows of the items below exactly
those of the spans whose last annotation with that key has that value, hides the others below, and changes no other. -/
theorem filter_exact_partial {ops : List StoreOp} {ms : MemStore} (h : MemStore.new.run ops = some ms) {t : ID} {tr : Tree}
    (hv : ms.view t = .found tr) (hz : ∀ s ∈ tr.spans, s.id.span ≠ 0) (hroot : ∀ s ∈ tr.spans, s.id.span ≠ tr.span.id.parent)
    {env : ViewEnv} {items : List TimelineItem} (hi : d3timeline env tr = some (.ok items)) {q : Span} (hq : q ∈ tr.spans)
    (ho : q ≠ tr.span ∨ ∀ s ∈ tr.spans, s ≠ tr.span → ∃ p ∈ tr.spans, p.id.span = s.id.parent)
    (fuzzy : Bytes → TimelineItem → Bool) {k v : Bytes} (hk : 58 ∉ k) (hv' : 58 ∉ v) (vis : Nat → Bool) {n : Nat} (hn : items.length < n) :
    ∃ vis', filterChildren fuzzy items n q.id.span.toText (k ++ 58 :: (34 :: (v ++ [34]))) vis = some vis' ∧
      (∀ i it s, items[i]? = some it → Below tr q s → it.spanID = s.id.span.toText →
        (vis' i = true ↔ ((s.annotations.filter fun a => a.key = k).getLast?.map fun a => a.value.getD []) = some v)) ∧
      ∀ i, ¬ ItemBelow tr q items i → vis' i = vis i := by
  have W := view_wellPlaced h hv
  obtain ⟨vis', h1, h2, h3⟩ := menu_on_trace h hv hz hroot hi hq ho (fun other => decide (AMap.get other.data k = some v)) vis hn
  refine ⟨vis', by simp only [filterChildren, strict_filter hk hv', h1], fun i it s hit hb e => ?_, h3⟩
  rw [h2 i it ⟨it, s, hit, hb, e⟩ hit]
  obtain ⟨d, s', hs', hio⟩ := item_span hi hit
  have : s' = s := span_unique W.nodup (mem_shown env tr 0 _ hs') (below_mem hb).2 (toText_inj (hio.spanID.symm.trans e))
  subst this
  rw [decide_eq_true_eq, hio.data, stringMap_get]
  have : (s'.annotations.filter fun a => a.key = k).getLast? = s'.annotations.reverse.find? fun a => a.key = k := by
    rw [List.getLast?_eq_head?_reverse, ← List.filter_reverse, List.head?_filter]
  rw [this]
  rfl

/-- **C96** (which filters are strict).  Those of the form `key:"value"` without further colons, and `key:"`, which is taken as
`key:""`. -/
theorem strict_filter_iff (f k v : Bytes) : strictFilter f = some (k, v) ↔
    58 ∉ k ∧ 58 ∉ v ∧ (f = k ++ 58 :: (34 :: (v ++ [34])) ∨ v = [] ∧ f = k ++ [58, 34]) := by
  constructor
  · intro h
    unfold strictFilter at h
    split at h
    · rename_i k' w hs
      split at h
      · rename_i hq
        injection h with h
        injection h with h1 h2
        subst h1
        obtain ⟨hk, ⟨h0, -⟩ | ⟨s', rfl, hs'⟩⟩ := splitOn_cons 58 f k' [w] hs
        · cases h0
        · obtain ⟨hw, ⟨-, rfl⟩ | ⟨s'', -, h0⟩⟩ := splitOn_cons 58 s' w [] hs'
          · obtain ⟨q1, q2⟩ := hq
            cases s' with
            | nil => cases q1
            | cons a s' =>
              injection q1 with q1
              subst q1
              rcases List.eq_nil_or_concat s' with rfl | ⟨u, b, rfl⟩
              · subst h2
                exact ⟨hk, by simp, .inr ⟨rfl, rfl⟩⟩
              · have hb : b = 34 := by
                  simpa [List.concat_eq_append, List.getLast?_cons] using q2
                subst hb
                have hu : u = v := by simpa using h2
                subst hu
                exact ⟨hk, fun hm => hw (by simp [hm]), .inl (by simp)⟩
          · exact absurd h0 (splitOn_ne_nil 58 s'')
      · cases h
    · cases h
  · rintro ⟨hk, hv, rfl | ⟨rfl, rfl⟩⟩
    · exact strict_filter hk hv
    · have h1 : splitOn 58 (k ++ [58, 34]) = [k, [34]] := by
        rw [splitOn_append _ _ _ hk, splitOn_no_sep _ _ (by decide)]
      unfold strictFilter
      rw [h1]
      simp

/-- **C96** (other filters).  Under the same conditions, any other filter gives each item below what the fuzzy search for the first 32
characters of the filter says of it, and changes no other. -/
theorem fuzzy_filter_partial {ops : List StoreOp} {ms : MemStore} (h : MemStore.new.run ops = some ms) {t : ID} {tr : Tree}
    (hv : ms.view t = .found tr) (hz : ∀ s ∈ tr.spans, s.id.span ≠ 0) (hroot : ∀ s ∈ tr.spans, s.id.span ≠ tr.span.id.parent)
    {env : ViewEnv} {items : List TimelineItem} (hi : d3timeline env tr = some (.ok items)) {q : Span} (hq : q ∈ tr.spans)
    (ho : q ≠ tr.span ∨ ∀ s ∈ tr.spans, s ≠ tr.span → ∃ p ∈ tr.spans, p.id.span = s.id.parent)
    (fuzzy : Bytes → TimelineItem → Bool) {f : Bytes} (hf : strictFilter f = none) (vis : Nat → Bool) {n : Nat}
    (hn : items.length < n) :
    ∃ vis', filterChildren fuzzy items n q.id.span.toText f vis = some vis' ∧
      (∀ i it, ItemBelow tr q items i → items[i]? = some it → vis' i = fuzzy (f.take 32) it) ∧
      ∀ i, ¬ ItemBelow tr q items i → vis' i = vis i := by
  obtain ⟨vis', h1, h2, h3⟩ := menu_on_trace h hv hz hroot hi hq ho (fuzzy (f.take 32)) vis hn
  exact ⟨vis', by simp only [filterChildren, hf, h1], h2, h3⟩

example : strictFilter b!"slow query" = none ∧ strictFilter b!"Name:\"a" = none ∧ strictFilter b!"Name:\"" = some (b!"Name", []) := by
  decide

/-- A filter with a colon in the value is not strict, though it has the form of one. -/
theorem colon_filter_fuzzy {k v : Bytes} (hv : 58 ∈ v) : strictFilter (k ++ 58 :: (34 :: (v ++ [34]))) = none := by
  have hl : ∀ s : Bytes, (splitOn 58 s).length = s.count 58 + 1 := by
    intro s
    induction s with
    | nil => rfl
    | cons c s ih =>
      by_cases hc : c = 58
      · subst hc
        simp [splitOn, ih]
      · have hc' : (c == 58) = false := by simpa using hc
        simp only [splitOn, hc, if_false, List.count_cons, hc']
        cases hs : splitOn 58 s with
        | nil => exact absurd hs (splitOn_ne_nil 58 s)
        | cons p ps => rw [hs] at ih; simpa using ih
  have h := hl (k ++ 58 :: (34 :: (v ++ [34])))
  have h' : 1 ≤ v.count 58 := List.one_le_count_iff.2 hv
  have hc : 3 ≤ (splitOn 58 (k ++ 58 :: (34 :: (v ++ [34])))).length := by
    rw [h]
    simp only [List.count_append, List.count_cons]
    simp
    omega
  unfold strictFilter
  split
  · rename_i e
    rw [e] at hc
    simp at hc
  · rfl

/-- A trace that meets the conditions: the root of `sampleTrace` is shown with a child that has a child, and all parents are there. -/
example : (MemStore.new.run (sampleTrace.spans.map fun s => .collect s.id s.annotations)).map (fun ms => ms.view 1) =
    some (.found sampleTrace) := by decide_cbv

example : (∀ s ∈ sampleTrace.spans, s.id.span ≠ 0) ∧ (∀ s ∈ sampleTrace.spans, s.id.span ≠ sampleTrace.span.id.parent) ∧
    ∀ s ∈ sampleTrace.spans, s ≠ sampleTrace.span → ∃ p ∈ sampleTrace.spans, p.id.span = s.id.parent := by decide

example : ((d3timeline sampleEnv sampleTrace).bind fun r => r.toOption.bind fun items =>
    (setChildrenVisible items 4 (1 : ID).toText false fun _ => true).map fun vis => (List.range 3).map vis) = some [true, false, false] := by
  decide_cbv

example : ((d3timeline sampleEnv sampleTrace).bind fun r => r.toOption.bind fun items =>
    (filterChildren (fun _ _ => false) items 4 (1 : ID).toText b!"Name:\"b\"" fun _ => true).map fun vis => (List.range 3).map vis) =
    some [true, false, true] := by decide_cbv

end Appdash
