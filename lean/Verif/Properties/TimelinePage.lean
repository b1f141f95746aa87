import Verif.Proofs.TimelinePage
import Verif.Properties.Links

/-!
# C151: the menu of the timeline acts on the span that was right-clicked
-/

namespace Appdash.TimelineMenu

open Spec

/-- The rows of the page after the acts: the timespan `j` of the row `i` is `datum`, and the row is that of the span `q`. -/
structure Row (E : PageEnv) (tr : Tree) (items : List TimelineItem) (acts : List TimelineAct) (i j : Nat) (q : Span) (datum : TimelineSpan) :
    Prop where
  span : q ∈ tr.spans
  row : ∃ p obj, (TimelinePage.load items).run E acts = some p ∧ (drawnItems p.data)[i]? = some obj ∧ obj.times[j]? = some datum ∧
    obj.spanID = q.id.span.toText

/-- **C151**, proved part: the script does not fail, whatever is clicked in whatever order, and the timeline keeps all its items. -/
theorem page_keeps_items_partial {tr : Tree} {env : ViewEnv} {items : List TimelineItem} (O : OnTrace tr env items) {E : PageEnv}
    (hB : Browser.Sound E.B) (hd : items.length < E.depth) (acts : List TimelineAct) :
    ∃ p, (TimelinePage.load items).run E acts = some p ∧ SameItems p.data items := by
  obtain ⟨p, h, I, -⟩ := run_inv O hB hd acts (load_inv items)
  exact ⟨p, h, I.same⟩

/-- **C151**, proved part: however the timeline was sorted, filtered, and spans shown or hidden, before and after a right click on a timespan of
a span, as long as there is no other right click, the menus carry the label of that timespan, Show and Hide Children change the flags of
the items of the spans below that span and nothing else, and so does a filter. -/
theorem menu_acts_on_clicked_partial {tr : Tree} {env : ViewEnv} {items : List TimelineItem} (O : OnTrace tr env items) {E : PageEnv}
    (hB : Browser.Sound E.B) (hd : items.length < E.depth) {before after : List TimelineAct} {i j : Nat} {q : Span} {datum : TimelineSpan}
    (R : Row E tr items before i j q datum) (hn : NoRightClick after) :
    ∃ p, (TimelinePage.load items).run E (before ++ .rightClick i j :: after) = some p ∧
      (after = [] → p.menuShown = true) ∧
      (p.menuShown = true → p.name = datum.label ∧ ∀ visible, p.act E (.showHide visible) =
        some { p with menuShown := false, data := flagBelow tr q (fun _ => visible) p.data }) ∧
      (p.filterShown = true → p.filterName = datum.label ∧
        (∀ k v, 58 ∉ k → 58 ∉ v → p.act E (.enter (k ++ 58 :: (34 :: (v ++ [34])))) =
          some { p with filterShown := false, data := flagBelow tr q (fun it => decide (AMap.get it.data k = some v)) p.data }) ∧
        ∀ text, strictFilter text = none → p.act E (.enter text) =
          some { p with filterShown := false, data := flagBelow tr q (E.fuzzy (text.take 32)) p.data }) := by
  obtain ⟨hq, p0, obj, h0, ho, hdt, hs⟩ := R
  obtain ⟨p0', h0', I0, -⟩ := run_inv O hB hd before (load_inv items)
  rw [h0] at h0'
  injection h0' with h0'
  subst h0'
  have h1 := rightClick_eq E p0 ho hdt
  obtain ⟨p1, h1', I1, -⟩ := act_inv O hB hd I0 (.rightClick i j)
  rw [h1] at h1'
  injection h1' with h1'
  subst h1'
  obtain ⟨p, h2, I2, t2⟩ := run_inv O hB hd after I1
  obtain ⟨e2, f2⟩ := page_run_heading after h2 hn (fun h => (by cases h))
  have ht : p.target = some q.id.span.toText := by rw [t2 hn, ← hs]
  refine ⟨p, ?_, ?_, fun hm => ⟨e2, fun visible => ?_⟩, fun hm => ⟨(f2 hm).trans e2, ?_⟩⟩
  · rw [page_run_append, h0]
    show p0.run E _ = _
    unfold TimelinePage.run at h2 ⊢
    rw [List.foldlM_cons, h1]
    exact h2
  · rintro rfl
    cases h2
    rfl
  · obtain ⟨vis, w1, w2⟩ := Option.map_eq_some_iff.1 (walk_flags O I2.same hq (fun _ => visible) hd)
    simp only [TimelinePage.act, hm, if_true, ht, setChildrenVisible, w1, Option.map_some, w2]
  · have key : ∀ text, p.act E (.enter text) = some { p with filterShown := false, data := flagBelow tr q (filterMark E.fuzzy text) p.data } := by
      intro text
      obtain ⟨vis, w1, w2⟩ := Option.map_eq_some_iff.1 (walk_flags O I2.same hq (filterMark E.fuzzy text) hd)
      simp only [TimelinePage.act, hm, if_true, ht, filterChildren_eq, w1, Option.map_some, w2]
    refine ⟨fun k v hk hv => ?_, fun text hx => ?_⟩
    · rw [key]
      unfold filterMark
      rw [strict_filter hk hv]
    · rw [key]
      unfold filterMark
      rw [hx]

/-- **C151**, proved part: the label of a timespan is the name of its span and its duration, if the first timespan of the span's row is
not within one millisecond and shorter than 292 years. -/
theorem heading_names_span_partial {tr : Tree} {env : ViewEnv} {items : List TimelineItem} (O : OnTrace tr env items) {E : PageEnv}
    (hB : Browser.Sound E.B) (hd : items.length < E.depth) {acts : List TimelineAct} {i j : Nat} {q : Span} {first datum : TimelineSpan}
    (R : Row E tr items acts i j q datum) (R0 : Row E tr items acts i 0 q first) (h0 : first.start < first.fin)
    (hlt : (first.fin - first.start) * 1000000 < 2 ^ 63) :
    datum.label = annotationsName q.annotations ++ b!" (" ++ env.durText ((first.fin - first.start) * 1000000) ++ b!")" := by
  obtain ⟨hq, p, obj, h1, ho, hdt, hs⟩ := R
  obtain ⟨-, p', obj', h1', ho', hf, -⟩ := R0
  rw [h1] at h1'
  injection h1' with h1'
  subst h1'
  rw [ho] at ho'
  injection ho' with ho'
  subst ho'
  obtain ⟨p', h1', I, -⟩ := run_inv O hB hd acts (load_inv items)
  rw [h1] at h1'
  injection h1' with h1'
  subst h1'
  have hm : obj ∈ p.data := (List.mem_filter.1 (List.mem_of_getElem? ho)).1
  obtain ⟨k, hk⟩ := List.mem_iff_getElem?.1 hm
  obtain ⟨k', it, hk', e⟩ := same_get I.same hk
  have hit := List.mem_of_getElem? hk'
  rw [bare_times e] at hdt hf
  rw [bare_spanID e] at hs
  have hl := item_labels O.items hit (first := first) (by rw [← hf]; cases it.times <;> rfl) (by omega) hlt datum (List.mem_of_getElem? hdt)
  obtain ⟨s, hs', e1, e2⟩ := O.span hit
  obtain ⟨t, W⟩ := O.placed
  have : s = q := span_unique W.nodup hs' hq (toText_inj (e1.symm.trans hs))
  subst this
  rw [hl, e2]

/-- The page of any span of a stored trace but the root is ordinary, if no span has ID zero. -/
theorem part_ordinary {ops : List StoreOp} {ms : MemStore} (h : MemStore.new.run ops = some ms) {t : ID} {whole part : Tree}
    (hv : ms.view t = .found whole) (hu : Subtree part whole) (hne : part ≠ whole) (hz : ∀ s ∈ part.spans, s.id.span ≠ 0) : Ordinary part := by
  obtain ⟨-, strong, hp⟩ := (subtree_wellPlaced hu (view_wellPlaced h hv)).resolve_left hne
  refine ⟨hz, hp, fun s hs hr => ?_⟩
  rw [spans_cons, List.mem_cons] at hs
  obtain ⟨a, ha, he⟩ := mem_tail_edge (hs.resolve_left hr)
  exact ⟨a, ha, (strong a s he).symm⟩

/-- **C151**, proved part: whatever was done before, a click on a timespan of a span leads to the page of that span and what is below it. -/
theorem click_leads_to_span_partial {ops : List StoreOp} {ms : MemStore} (h : MemStore.new.run ops = some ms) {t : ID} {tr : Tree}
    (hv : ms.view t = .found tr) {env : ViewEnv} {items : List TimelineItem} (ho : Ordinary tr) (hi : d3timeline env tr = some (.ok items))
    {E : PageEnv} (hB : Browser.Sound E.B) (hd : items.length < E.depth) {acts : List TimelineAct} {p : TimelinePage}
    (hr : (TimelinePage.load items).run E acts = some p) {i j : Nat} {q : Span} {datum : TimelineSpan} (R : Row E tr items acts i j q datum) :
    ∃ url u, p.click i j = some url ∧ Subtree u tr ∧ u.span = q ∧ visit ms.lookup url = some (.ok (u, false)) := by
  have O : OnTrace tr env items := ⟨⟨ops, ms, t, tr, h, hv, .refl _⟩, ho, hi⟩
  obtain ⟨hq, p', obj, h1, ho', hdt, hs⟩ := R
  rw [hr] at h1
  injection h1 with h1
  subst h1
  obtain ⟨p', h1', I, -⟩ := run_inv O hB hd acts (load_inv items)
  rw [hr] at h1'
  injection h1' with h1'
  subst h1'
  have hm : obj ∈ p.data := (List.mem_filter.1 (List.mem_of_getElem? ho')).1
  obtain ⟨k, hk⟩ := List.mem_iff_getElem?.1 hm
  obtain ⟨k', it, hk', e⟩ := same_get I.same hk
  have h0 : ∀ sp ∈ tr.spans, sp.id.parent = 0 → sp = tr.span := by
    intro sp hsp hp
    by_contra hne
    obtain ⟨a, ha, ea⟩ := ho.parents sp hsp hne
    exact ho.zero a ha (ea.trans hp)
  obtain ⟨u, hu, hus, hvis⟩ := timeline_links_partial h hv h0 (.refl tr) hi it (List.mem_of_getElem? hk')
  refine ⟨obj.url, u, ?_, hu, ?_, ?_⟩
  · simp only [TimelinePage.click, ho', Option.bind_some, hdt, numFromEnd_itemID, Option.map_some]
  · exact span_unique (view_wellPlaced h hv).nodup (subtree_mem hu _ (span_mem_spans _)) hq
      (toText_inj (hus.symm.trans ((bare_spanID e).symm.trans hs)))
  · rw [bare_url e]
    exact hvis

/-- **C151**, in full: moreover the heading of a menu tells the name of the span. -/
def HeadingNamesSpan : Prop :=
  ∀ (tr : Tree) (env : ViewEnv) (items : List TimelineItem), OnTrace tr env items → ∀ (E : PageEnv), Browser.Sound E.B → items.length < E.depth →
    ∀ (acts : List TimelineAct) (i j : Nat) (q : Span) (datum : TimelineSpan), Row E tr items acts i j q datum →
      ∀ p, (TimelinePage.load items).run E (acts ++ [.rightClick i j]) = some p → annotationsName q.annotations <+: p.name

/-- A root from second 0 to 9 and a span below it that takes less than a millisecond. -/
def shortSpans : List StoreOp :=
  [.collect ⟨1, 5, 0⟩ (namedSpan ⟨1, 5, 0⟩ b!"a" 0 9).annotations, .collect ⟨1, 6, 5⟩ (namedSpan ⟨1, 6, 5⟩ b!"b" 3 3).annotations]

/-- What is stored. -/
def shortTree : Tree := .node (namedSpan ⟨1, 5, 0⟩ b!"a" 0 9) [.node (namedSpan ⟨1, 6, 5⟩ b!"b" 3 3) []]

set_option maxRecDepth 3000 in
theorem short_view : (MemStore.new.run shortSpans).map (fun ms => ms.view 1) = some (.found shortTree) := by decide_cbv

set_option maxRecDepth 3000 in
theorem short_items : (d3timeline sampleEnv shortTree).map (fun r => r.toOption.map fun items => items.map fun i =>
    (i.spanID, i.visible, i.times.map fun t => t.label)) =
      some (some [((5 : ID).toText, true, [b!"a (d)"]), ((6 : ID).toText, true, [[]])]) := by decide_cbv

theorem short_ordinary : Ordinary shortTree where
  zero := by decide
  root := by decide
  parents := by decide

/-- A browser. -/
def somePage : PageEnv := ⟨TimelineSort.plainBrowser, fun _ _ => true, 1000⟩

/-- The timeline of the two spans. -/
theorem short_onTrace : ∃ items, OnTrace shortTree sampleEnv items ∧ items.map (fun i => (i.spanID, i.visible, i.times.map fun t => t.label)) =
    [((5 : ID).toText, true, [b!"a (d)"]), ((6 : ID).toText, true, [[]])] := by
  obtain ⟨ms, hms, hv⟩ := Option.map_eq_some_iff.1 short_view
  have h := short_items
  generalize hr : d3timeline sampleEnv shortTree = r at h
  match r with
  | none => simp at h
  | some (.error _) => simp [Except.toOption] at h
  | some (.ok items) => exact ⟨items, ⟨⟨shortSpans, ms, 1, shortTree, hms, hv, .refl _⟩, short_ordinary, hr⟩, by simpa [Except.toOption] using h⟩

/-- Property C151 is false of the code: the menu of a span that takes less than a millisecond has no heading. -/
theorem heading_names_span_false : ¬ HeadingNamesSpan := by
  intro H
  obtain ⟨items, O, hl⟩ := short_onTrace
  match items, hl with
  | [a, b], hl =>
    simp only [List.map_cons, List.map_nil, List.cons.injEq, Prod.mk.injEq, and_true] at hl
    obtain ⟨⟨a1, a2, a3⟩, b1, b2, b3⟩ := hl
    obtain ⟨t, hb, b3⟩ := List.map_eq_singleton_iff.1 b3
    have hd : drawnItems [a, b] = [a, b] := by simp [drawnItems, a2, b2]
    have ho : (drawnItems (TimelinePage.load [a, b]).data)[1]? = some b := by
      show (drawnItems [a, b])[1]? = _
      rw [hd]; rfl
    have hp := H shortTree sampleEnv [a, b] O somePage TimelineSort.plainBrowser_sound (by show 2 < 1000; omega) [] 1 0
      (namedSpan ⟨1, 6, 5⟩ b!"b" 3 3) t ⟨by decide, _, b, rfl, ho, by rw [hb]; rfl, b1⟩ _
      (by
        show (TimelinePage.load [a, b]).run somePage [.rightClick 1 0] = _
        unfold TimelinePage.run
        rw [List.foldlM_cons, rightClick_eq somePage _ ho (datum := t) (by rw [hb]; rfl)]
        rfl)
    have hp : b!"b" <+: t.label := hp
    rw [b3] at hp
    revert hp
    decide

/-- The hypotheses of the theorems are met by the root of the same trace. -/
example : ∃ items datum, OnTrace shortTree sampleEnv items ∧ Row somePage shortTree items [] 0 0 (namedSpan ⟨1, 5, 0⟩ b!"a" 0 9) datum ∧
    datum.label = b!"a (d)" ∧ NoRightClick [.sort .duration, .showHide false, .filter, .close] := by
  obtain ⟨items, O, hl⟩ := short_onTrace
  match items, hl with
  | [a, b], hl =>
    simp only [List.map_cons, List.map_nil, List.cons.injEq, Prod.mk.injEq, and_true] at hl
    obtain ⟨⟨a1, a2, a3⟩, b1, b2, b3⟩ := hl
    obtain ⟨t, ha, a3⟩ := List.map_eq_singleton_iff.1 a3
    have hd : drawnItems [a, b] = [a, b] := by simp [drawnItems, a2, b2]
    refine ⟨[a, b], t, O, ⟨by decide, _, a, rfl, ?_, by rw [ha]; rfl, a1⟩, a3, fun i j h => by simp at h⟩
    show (drawnItems [a, b])[0]? = _
    rw [hd]; rfl

/-- The page after some acts on the timeline of a trace with three levels: what is drawn, and the heading of the menu. -/
def drawnAfter (acts : List TimelineAct) : Option (List Bytes × Bytes × Bool) :=
  match d3timeline sampleEnv sampleTrace with
  | some (.ok items) =>
    ((TimelinePage.load items).run somePage acts).map fun p => ((drawnItems p.data).map TimelineItem.label, p.name, p.menuShown)
  | _ => none

set_option maxRecDepth 3000 in
/-- At first the root and the span below it are drawn.  Sorted by duration, the root is the second row; "Show Children" of that row shows the
third span, and after the timeline is sorted again, "Hide Children" of the root hides both others. -/
example : drawnAfter [] = some ([b!"root", b!"a"], [], false) ∧
    drawnAfter [.sort .duration, .rightClick 1 0] = some ([b!"a", b!"root"], b!"root (d)", true) ∧
    drawnAfter [.sort .duration, .rightClick 1 0, .showHide true] = some ([b!"b", b!"a", b!"root"], b!"root (d)", false) ∧
    drawnAfter [.sort .duration, .rightClick 0 0, .showHide true, .rightClick 2 0, .sort .duration, .showHide false] =
      some ([b!"root"], b!"root (d)", false) := by
  refine ⟨?_, ?_, ?_, ?_⟩ <;> decide_cbv

end Appdash.TimelineMenu
