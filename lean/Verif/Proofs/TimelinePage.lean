import Verif.Properties.TimelineScript
import Verif.Properties.TimelineSort
import Verif.Proofs.Strconv
import Verif.Spec.TimelinePage

/-! # The timeline with its menus -/

namespace Appdash

open Spec

/-! ## `numFromEnd` -/

theorem digitByte_between (n : Nat) : 48 ≤ digitByte n ∧ digitByte n ≤ 57 := by
  have h := digitByte_toNat n
  rw [UInt8.le_iff_toNat_le, UInt8.le_iff_toNat_le, h]
  simp
  omega

theorem formatDecAux_range (fuel n : Nat) : ∀ c ∈ formatDecAux fuel n, 48 ≤ c ∧ c ≤ 57 := by
  induction fuel generalizing n with
  | zero => intro c hc; cases hc
  | succ fuel ih =>
    intro c hc
    simp only [formatDecAux] at hc
    split at hc
    · rw [List.mem_singleton.1 hc]; exact digitByte_between n
    · rcases List.mem_append.1 hc with hc | hc
      · exact ih _ c hc
      · rw [List.mem_singleton.1 hc]; exact digitByte_between n

theorem takeWhile_append_stop_timeline {α : Type} (P : α → Bool) (l : List α) (x : α) (r : List α) (hl : ∀ a ∈ l, P a = true) (hx : P x = false) :
    (l ++ x :: r).takeWhile P = l := by
  induction l with
  | nil => simp [hx]
  | cons a l ih =>
    rw [List.cons_append, List.takeWhile_cons, hl a (List.mem_cons_self ..), if_pos rfl, ih fun b hb => hl b (List.mem_cons_of_mem _ hb)]

/-- A text that ends with the numeral of `i` after something else than a digit. -/
theorem numFromEnd_formatDec (pre : Bytes) (c : UInt8) (hc : ¬ (48 ≤ c ∧ c ≤ 57)) (i : Nat) :
    numFromEnd (pre ++ c :: formatDec i) = some i := by
  have h : ((pre ++ c :: formatDec i).reverse.takeWhile fun c => decide (48 ≤ c ∧ c ≤ 57)).reverse = formatDec i := by
    rw [List.reverse_append, List.reverse_cons, List.append_assoc, List.singleton_append, takeWhile_append_stop_timeline, List.reverse_reverse]
    · intro a ha
      exact decide_eq_true (formatDecAux_range _ _ a (List.mem_reverse.1 ha))
    · exact decide_eq_false hc
  unfold numFromEnd
  rw [h]
  split
  · rename_i e; exact absurd e (formatDec_ne_nil i)
  · exact parseDigits_formatDecAux _ _ (by omega)

theorem numFromEnd_itemID (i : Nat) : numFromEnd (timelineItemID i) = some i := by
  have := numFromEnd_formatDec b!"timelineItem" 95 (by decide) i
  exact this

/-! ## Items in another order -/

/-- `Under`, for items instead of their places. -/
inductive UnderItem (l : List TimelineItem) (p : Bytes) : TimelineItem → Prop
  | child {it : TimelineItem} : it ∈ l → it.parentSpanID = p → UnderItem l p it
  | deeper {it jt : TimelineItem} : UnderItem l p jt → it ∈ l → it.parentSpanID = jt.spanID → UnderItem l p it

theorem UnderItem.mem {l : List TimelineItem} {p : Bytes} {it : TimelineItem} (h : UnderItem l p it) : it ∈ l := by
  cases h <;> assumption

theorem under_item {l : List TimelineItem} {p : Bytes} {i : Nat} (h : Under l p i) : ∀ {it : TimelineItem}, l[i]? = some it → UnderItem l p it := by
  induction h with
  | child h1 h2 =>
    intro it hi
    rw [h1] at hi
    injection hi with hi
    subst hi
    exact .child (List.mem_of_getElem? h1) h2
  | deeper _ h1 h2 h3 ih =>
    intro it hi
    rw [h2] at hi
    injection hi with hi
    subst hi
    exact .deeper (ih h1) (List.mem_of_getElem? h2) h3

theorem item_under {l : List TimelineItem} {p : Bytes} {it : TimelineItem} (h : UnderItem l p it) : ∀ {i : Nat}, l[i]? = some it → Under l p i := by
  induction h with
  | child _ h2 => intro i hi; exact .child hi h2
  | deeper h1 _ h3 ih =>
    intro i hi
    obtain ⟨j, hj⟩ := List.mem_iff_getElem?.1 h1.mem
    exact .deeper (ih hj) hj hi h3

theorem UnderItem.bare {l : List TimelineItem} {p : Bytes} {it : TimelineItem} (h : UnderItem l p it) :
    UnderItem (l.map bare) p (bare it) := by
  induction h with
  | child h1 h2 => exact .child (List.mem_map_of_mem h1) h2
  | deeper _ h1 h2 ih => exact .deeper ih (List.mem_map_of_mem h1) h2

theorem UnderItem.unbare {l : List TimelineItem} {p : Bytes} {x : TimelineItem} (h : UnderItem (l.map Spec.bare) p x) :
    ∀ {it : TimelineItem}, it ∈ l → Spec.bare it = x → UnderItem l p it := by
  induction h with
  | child _ h2 => intro it hi e; subst e; exact .child hi h2
  | deeper h1 _ h3 ih =>
    intro it hi e
    subst e
    obtain ⟨jt, hj, rfl⟩ := List.mem_map.1 h1.mem
    exact .deeper (ih hj rfl) hi h3

theorem UnderItem.perm {l l' : List TimelineItem} {p : Bytes} {x : TimelineItem} (hp : l.Perm l') (h : UnderItem l p x) : UnderItem l' p x := by
  induction h with
  | child h1 h2 => exact .child (hp.mem_iff.1 h1) h2
  | deeper _ h1 h2 ih => exact .deeper ih (hp.mem_iff.1 h1) h2

/-- The same items are under an ID, whatever their order and flags. -/
theorem under_same {l l' : List TimelineItem} (hs : SameItems l l') {p : Bytes} {i i' : Nat} {it it' : TimelineItem} (hi : l[i]? = some it)
    (hi' : l'[i']? = some it') (e : Spec.bare it = Spec.bare it') (h : Under l p i) : Under l' p i' :=
  item_under (UnderItem.unbare (((under_item h hi).bare).perm hs) (List.mem_of_getElem? hi') e.symm) hi'

theorem same_get {l l' : List TimelineItem} (hs : SameItems l l') {i : Nat} {it : TimelineItem} (hi : l[i]? = some it) :
    ∃ (i' : Nat) (it' : TimelineItem), l'[i']? = some it' ∧ Spec.bare it = Spec.bare it' := by
  have : Spec.bare it ∈ l'.map Spec.bare := hs.mem_iff.1 (List.mem_map_of_mem (List.mem_of_getElem? hi))
  obtain ⟨it', h1, h2⟩ := List.mem_map.1 this
  obtain ⟨i', h3⟩ := List.mem_iff_getElem?.1 h1
  exact ⟨i', it', h3, h2.symm⟩

theorem SameItems.symm {l l' : List TimelineItem} (h : SameItems l l') : SameItems l' l := List.Perm.symm h

theorem bare_spanID {a b : TimelineItem} (e : Spec.bare a = Spec.bare b) : a.spanID = b.spanID := by
  have : (Spec.bare a).spanID = (Spec.bare b).spanID := by rw [e]
  exact this

theorem bare_times {a b : TimelineItem} (e : Spec.bare a = Spec.bare b) : a.times = b.times := by
  have : (Spec.bare a).times = (Spec.bare b).times := by rw [e]
  exact this

theorem bare_label {a b : TimelineItem} (e : Spec.bare a = Spec.bare b) : a.label = b.label := by
  have : (Spec.bare a).label = (Spec.bare b).label := by rw [e]
  exact this

theorem bare_url {a b : TimelineItem} (e : Spec.bare a = Spec.bare b) : a.url = b.url := by
  have : (Spec.bare a).url = (Spec.bare b).url := by rw [e]
  exact this

/-! ## What the menu does to the page -/

theorem Spec.OnTrace.placed {tr : Tree} {env : ViewEnv} {items : List TimelineItem} (O : OnTrace tr env items) : ∃ t, WellPlaced t tr := by
  obtain ⟨ops, ms, t, whole, hrun, hv, hu⟩ := O.stored
  have W := view_wellPlaced hrun hv
  rcases subtree_wellPlaced hu W with rfl | ⟨W', -⟩
  · exact ⟨t, W⟩
  · exact ⟨t, W'⟩

theorem Spec.OnTrace.span {tr : Tree} {env : ViewEnv} {items : List TimelineItem} (O : OnTrace tr env items) {it : TimelineItem} (h : it ∈ items) :
    ∃ s ∈ tr.spans, it.spanID = s.id.span.toText ∧ it.label = annotationsName s.annotations := by
  obtain ⟨i, hi⟩ := List.mem_iff_getElem?.1 h
  obtain ⟨d, s, hs, hio⟩ := item_span O.items hi
  exact ⟨s, mem_shown env tr 0 _ hs, hio.spanID, hio.label⟩

theorem walk_flags {tr : Tree} {env : ViewEnv} {items data : List TimelineItem} (O : OnTrace tr env items) (hs : SameItems data items)
    {q : Span} (hq : q ∈ tr.spans) (mark : TimelineItem → Bool) {n : Nat} (hn : items.length < n) :
    (walkChildren data mark n q.id.span.toText (flagsOf data)).map (setFlags data) = some (flagBelow tr q mark data) := by
  obtain ⟨t, W⟩ := O.placed
  have hlen : data.length < n := by
    have := hs.length_eq
    simp only [List.length_map] at this
    omega
  have hac : ∀ j jt, Under data q.id.span.toText j → data[j]? = some jt → ¬ Under data jt.spanID j := by
    intro j jt _ hj hu
    obtain ⟨j', jt', hj', e⟩ := same_get hs hj
    have := under_same hs hj hj' e hu
    rw [bare_spanID e] at this
    exact no_cycle W O.ordinary.root O.items hj' this
  obtain ⟨vis', h1, h2, h3⟩ := menu_follows_links data mark q.id.span.toText (flagsOf data) hac hlen
  have key : ∀ i it, data[i]? = some it → (Under data q.id.span.toText i ↔ OfBelow tr q it) := by
    intro i it hi
    obtain ⟨i', it', hi', e⟩ := same_get hs hi
    constructor
    · intro hu
      obtain ⟨d, s, -, hio, hb⟩ := under_below W O.ordinary.root O.items hq (under_same hs hi hi' e hu) hi'
      exact ⟨s, hb, by rw [bare_spanID e]; exact hio.spanID⟩
    · rintro ⟨s, hb, es⟩
      obtain ⟨d, s', hs', hio⟩ := item_span O.items hi'
      have es' : it'.spanID = s.id.span.toText := by rw [← bare_spanID e]; exact es
      have : s' = s := span_unique W.nodup (mem_shown env tr 0 _ hs') (below_mem hb).2 (toText_inj (hio.spanID.symm.trans es'))
      subst this
      exact under_same hs.symm hi' hi e.symm (below_under W O.items O.ordinary.zero (.inr O.ordinary.parents) hb hs' hi' es')
  rw [h1]
  simp only [Option.map_some, Option.some.injEq]
  apply List.ext_getElem?
  intro i
  rw [setFlags, flagBelow, List.getElem?_mapIdx, List.getElem?_map]
  cases hi : data[i]? with
  | none => rfl
  | some it =>
    simp only [Option.map_some, Option.some.injEq]
    by_cases hb : OfBelow tr q it
    · rw [if_pos hb, h2 i it ((key i it hi).2 hb) hi]
    · rw [if_neg hb, h3 i fun hu => hb ((key i it hi).1 hu)]
      simp [flagsOf, hi]

theorem flagBelow_same (tr : Tree) (q : Span) (mark : TimelineItem → Bool) (l : List TimelineItem) : (flagBelow tr q mark l).map bare = l.map bare := by
  rw [flagBelow, List.map_map]
  apply List.map_congr_left
  intro it _
  simp only [Function.comp]
  split <;> rfl

/-- The mark of a filter. -/
def filterMark (fuzzy : Bytes → TimelineItem → Bool) (text : Bytes) : TimelineItem → Bool :=
  match strictFilter text with
  | some (k, v) => fun other => decide (AMap.get other.data k = some v)
  | none => fuzzy (text.take 32)

theorem filterChildren_eq (fuzzy : Bytes → TimelineItem → Bool) (data : List TimelineItem) (n : Nat) (spanID text : Bytes) (vis : Nat → Bool) :
    filterChildren fuzzy data n spanID text vis = walkChildren data (filterMark fuzzy text) n spanID vis := by
  unfold filterChildren filterMark
  cases strictFilter text with
  | none => rfl
  | some x => rfl

/-- What holds of a page at any time. -/
structure PageInv (items : List TimelineItem) (p : TimelinePage) : Prop where
  same : SameItems p.data items
  closed : p.target = none → p.menuShown = false ∧ p.filterShown = false
  target : ∀ s, p.target = some s → ∃ it ∈ items, it.spanID = s

theorem act_inv {tr : Tree} {env : ViewEnv} {items : List TimelineItem} (O : OnTrace tr env items) {E : PageEnv} (hB : Browser.Sound E.B)
    (hd : items.length < E.depth) {p : TimelinePage} (I : PageInv items p) (a : TimelineAct) :
    ∃ p', p.act E a = some p' ∧ PageInv items p' ∧ (¬ (∃ i j, a = .rightClick i j) → p'.target = p.target) := by
  cases a with
  | sort k =>
    refine ⟨_, rfl, ⟨?_, I.closed, I.target⟩, fun _ => rfl⟩
    have hl : ∀ i ∈ p.data, i.times ≠ [] := by
      intro i hi
      obtain ⟨j, hj⟩ := List.mem_iff_getElem?.1 hi
      obtain ⟨j', it', hj', e⟩ := same_get I.same hj
      rw [bare_times e]
      exact TimelineSort.items_timed env tr items O.items it' (List.mem_of_getElem? hj')
    have hp := hB.perm _ p.data (compareItems_consistent E.B (toggleOrder_order p.last k) k p.data hl)
    exact (hp.map bare).trans I.same
  | rightClick i j =>
    simp only [TimelinePage.act, TimelinePage.open]
    cases hx : ((drawnItems p.data)[i]?).bind fun it => it.times[j]? with
    | none => exact ⟨p, rfl, I, fun h => absurd ⟨i, j, rfl⟩ h⟩
    | some datum =>
      rw [numFromEnd_itemID]
      cases ho : (drawnItems p.data)[i]? with
      | none => rw [ho] at hx; cases hx
      | some obj =>
        refine ⟨{ p with filterShown := false, target := some obj.spanID, name := datum.label, menuShown := true }, by simp only [ho],
          ⟨I.same, fun h => (by cases h), ?_⟩, fun h => absurd ⟨i, j, rfl⟩ h⟩
        intro s hs
        injection hs with hs
        have hm : obj ∈ p.data := (List.mem_filter.1 (List.mem_of_getElem? ho)).1
        obtain ⟨k, hk⟩ := List.mem_iff_getElem?.1 hm
        obtain ⟨k', it', hk', e⟩ := same_get I.same hk
        exact ⟨it', List.mem_of_getElem? hk', by rw [← bare_spanID e]; exact hs⟩
  | showHide visible =>
    by_cases hm : p.menuShown = true
    · cases ht : p.target with
      | none => rw [(I.closed ht).1] at hm; cases hm
      | some s =>
        obtain ⟨it, hit, e⟩ := I.target s ht
        obtain ⟨q, hq, hqs, -⟩ := O.span hit
        rw [e] at hqs
        have hw := walk_flags O I.same hq (fun _ => visible) hd
        rw [← hqs] at hw
        obtain ⟨vis, h1, h2⟩ := Option.map_eq_some_iff.1 hw
        refine ⟨{ p with menuShown := false, data := setFlags p.data vis }, ?_, ⟨?_, fun h => ?_, fun s' hs' => I.target s' hs'⟩, fun _ => ht⟩
        · simp only [TimelinePage.act, hm, if_true, ht, setChildrenVisible, h1, Option.map_some]
        · show SameItems (setFlags p.data vis) items
          rw [h2]
          show ((flagBelow _ _ _ _).map bare).Perm _
          rw [flagBelow_same]
          exact I.same
        · rw [show p.target = none from h] at ht; cases ht
    · refine ⟨p, by simp [TimelinePage.act, hm], I, fun _ => rfl⟩
  | filter =>
    by_cases hm : p.menuShown = true
    · refine ⟨{ p with menuShown := false, filterName := p.name, filterShown := true }, by simp only [TimelinePage.act, hm, if_true],
        ⟨I.same, fun h => ?_, I.target⟩, fun _ => rfl⟩
      rw [(I.closed h).1] at hm
      cases hm
    · refine ⟨p, by simp [TimelinePage.act, hm], I, fun _ => rfl⟩
  | close => exact ⟨_, rfl, ⟨I.same, fun h => ⟨rfl, (I.closed h).2⟩, I.target⟩, fun _ => rfl⟩
  | enter text =>
    by_cases hm : p.filterShown = true
    · cases ht : p.target with
      | none => rw [(I.closed ht).2] at hm; cases hm
      | some s =>
        obtain ⟨it, hit, e⟩ := I.target s ht
        obtain ⟨q, hq, hqs, -⟩ := O.span hit
        rw [e] at hqs
        have hw := walk_flags O I.same hq (filterMark E.fuzzy text) hd
        rw [← hqs] at hw
        obtain ⟨vis, h1, h2⟩ := Option.map_eq_some_iff.1 hw
        refine ⟨{ p with filterShown := false, data := setFlags p.data vis }, ?_, ⟨?_, fun h => ?_, fun s' hs' => I.target s' hs'⟩, fun _ => ht⟩
        · simp only [TimelinePage.act, hm, if_true, ht, filterChildren_eq, h1, Option.map_some]
        · show SameItems (setFlags p.data vis) items
          rw [h2]
          show ((flagBelow _ _ _ _).map bare).Perm _
          rw [flagBelow_same]
          exact I.same
        · rw [show p.target = none from h] at ht; cases ht
    · refine ⟨p, by simp [TimelinePage.act, hm], I, fun _ => rfl⟩
  | closeFilter => exact ⟨_, rfl, ⟨I.same, fun h => ⟨(I.closed h).1, rfl⟩, I.target⟩, fun _ => rfl⟩

theorem run_inv {tr : Tree} {env : ViewEnv} {items : List TimelineItem} (O : OnTrace tr env items) {E : PageEnv} (hB : Browser.Sound E.B)
    (hd : items.length < E.depth) : ∀ (acts : List TimelineAct) {p : TimelinePage}, PageInv items p →
      ∃ p', p.run E acts = some p' ∧ PageInv items p' ∧ (NoRightClick acts → p'.target = p.target)
  | [], p, I => ⟨p, rfl, I, fun _ => rfl⟩
  | a :: acts, p, I => by
    obtain ⟨p1, h1, I1, t1⟩ := act_inv O hB hd I a
    obtain ⟨p2, h2, I2, t2⟩ := run_inv O hB hd acts I1
    refine ⟨p2, ?_, I2, fun hn => ?_⟩
    · unfold TimelinePage.run at h2 ⊢
      rw [List.foldlM_cons, h1]
      exact h2
    · rw [t2 fun i j hm => hn i j (List.mem_cons_of_mem _ hm), t1]
      rintro ⟨i, j, rfl⟩
      exact hn i j (List.mem_cons_self ..)

theorem load_inv (items : List TimelineItem) : PageInv items (.load items) :=
  ⟨List.Perm.refl _, fun _ => ⟨rfl, rfl⟩, fun s h => (by cases h)⟩

/-- No right click: the heading of the menu stays, and it is that of the menu for filters if this is shown. -/
theorem page_act_heading {E : PageEnv} {p p' : TimelinePage} {a : TimelineAct} (h : p.act E a = some p') (ha : ¬ ∃ i j, a = .rightClick i j)
    (hf : p.filterShown = true → p.filterName = p.name) : p'.name = p.name ∧ (p'.filterShown = true → p'.filterName = p'.name) := by
  cases a with
  | sort k => cases h; exact ⟨rfl, hf⟩
  | rightClick i j => exact absurd ⟨i, j, rfl⟩ ha
  | showHide v =>
    simp only [TimelinePage.act] at h
    split at h
    · split at h
      · cases h
      · obtain ⟨vis, -, rfl⟩ := Option.map_eq_some_iff.1 h
        exact ⟨rfl, hf⟩
    · cases h; exact ⟨rfl, hf⟩
  | filter =>
    simp only [TimelinePage.act] at h
    split at h
    · cases h; exact ⟨rfl, fun _ => rfl⟩
    · cases h; exact ⟨rfl, hf⟩
  | close => cases h; exact ⟨rfl, hf⟩
  | enter text =>
    simp only [TimelinePage.act] at h
    split at h
    · split at h
      · cases h
      · obtain ⟨vis, -, rfl⟩ := Option.map_eq_some_iff.1 h
        exact ⟨rfl, fun h => (by cases h)⟩
    · cases h; exact ⟨rfl, hf⟩
  | closeFilter => cases h; exact ⟨rfl, fun h => (by cases h)⟩

theorem page_run_heading {E : PageEnv} : ∀ (acts : List TimelineAct) {p p' : TimelinePage}, p.run E acts = some p' → NoRightClick acts →
    (p.filterShown = true → p.filterName = p.name) → p'.name = p.name ∧ (p'.filterShown = true → p'.filterName = p'.name)
  | [], p, p', h, _, hf => by cases h; exact ⟨rfl, hf⟩
  | a :: acts, p, p', h, hn, hf => by
    unfold TimelinePage.run at h
    rw [List.foldlM_cons] at h
    cases h1 : p.act E a with
    | none => rw [h1] at h; cases h
    | some p1 =>
      rw [h1] at h
      have ha : ¬ ∃ i j, a = .rightClick i j := by
        rintro ⟨i, j, rfl⟩
        exact hn i j (List.mem_cons_self ..)
      obtain ⟨e1, f1⟩ := page_act_heading h1 ha hf
      obtain ⟨e2, f2⟩ := page_run_heading acts (p := p1) h (fun i j hm => hn i j (List.mem_cons_of_mem _ hm)) f1
      exact ⟨e2.trans e1, f2⟩

theorem page_run_append (E : PageEnv) (p : TimelinePage) (as bs : List TimelineAct) : p.run E (as ++ bs) = (p.run E as).bind fun p' => p'.run E bs := by
  unfold TimelinePage.run
  rw [List.foldlM_append]
  rfl

/-- A right click on a timespan that is there. -/
theorem rightClick_eq (E : PageEnv) (p : TimelinePage) {i j : Nat} {obj : TimelineItem} {datum : TimelineSpan}
    (ho : (drawnItems p.data)[i]? = some obj) (hd : obj.times[j]? = some datum) : p.act E (.rightClick i j) =
      some { p with filterShown := false, target := some obj.spanID, name := datum.label, menuShown := true } := by
  simp only [TimelinePage.act, TimelinePage.open, ho, Option.bind_some, hd, numFromEnd_itemID]

theorem labelTimes_label (d : Int → Bytes) (l : Bytes) (times : List TimelineSpan) {first : TimelineSpan}
    (hf : (labelTimes d l times).head? = some first) (h0 : 0 < (first.fin - first.start) * 1000000)
    (hlt : (first.fin - first.start) * 1000000 < 2 ^ 63) :
    ∀ t ∈ labelTimes d l times, t.label = l ++ b!" (" ++ d ((first.fin - first.start) * 1000000) ++ b!")" := by
  cases times with
  | nil => cases hf
  | cons t ts =>
    have hs : first.start = t.start ∧ first.fin = t.fin := by
      have h := labelTimes_same d l (t :: ts)
      generalize labelTimes d l (t :: ts) = L at h hf
      cases h with
      | cons h1 _ => injection hf with hf; subst hf; exact h1
    rw [hs.1, hs.2] at h0 hlt ⊢
    have hb : ((t.fin - t.start) * 1000000).bmod (2 ^ 64) = (t.fin - t.start) * 1000000 := by
      apply Int.bmod_eq_of_le <;> omega
    intro u hu
    simp only [labelTimes, hb, gt_iff_lt, if_pos h0] at hu
    obtain ⟨w, -, rfl⟩ := List.mem_map.1 hu
    rfl

/-- The labels of the timespans. -/
theorem item_labels {env : ViewEnv} {tr : Tree} {items : List TimelineItem} (h : d3timeline env tr = some (.ok items)) {it : TimelineItem}
    (hi : it ∈ items) {first : TimelineSpan} (hf : it.times.head? = some first) (h0 : 0 < (first.fin - first.start) * 1000000)
    (hlt : (first.fin - first.start) * 1000000 < 2 ^ 63) :
    ∀ t ∈ it.times, t.label = it.label ++ b!" (" ++ env.durText ((first.fin - first.start) * 1000000) ++ b!")" := by
  have hm := (timeline_ok_spec env tr 0 items h).1
  obtain ⟨x, -, ts, -, -, rfl⟩ := forall₂_mem_right hm hi
  exact labelTimes_label _ _ _ hf h0 hlt

end Appdash
