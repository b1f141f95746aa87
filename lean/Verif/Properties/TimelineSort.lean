import Verif.Proofs.TimelineSort
import Verif.Properties.Views

/-!
# C141: the buttons that sort the timeline
-/

namespace Appdash.TimelineSort

open Spec

/-- An item of a timeline belongs to a timed span. -/
theorem item_of_span (env : ViewEnv) (t : Tree) (items : List TimelineItem) (h : d3timeline env t = some (.ok items)) (i : TimelineItem)
    (hi : i ∈ items) : ∃ x ∈ shown env 0 t, ∃ ts, spanTimes env.reg x.2.annotations = some (.ok ts) ∧ validTimes ts ≠ [] ∧
      TimesOf (x.2.id.parent = 0) ts i.times := by
  obtain ⟨_, h⟩ := timeline_ok env t items h
  generalize shown env 0 t = l at h
  clear * - h hi
  induction h with
  | nil => simp at hi
  | cons hx _ ih =>
    rcases List.mem_cons.1 hi with rfl | hi
    · exact ⟨_, by simp, hx.2.2⟩
    · obtain ⟨x, hx, h⟩ := ih hi
      exact ⟨x, by simp [hx], h⟩

/-- Every item of a timeline has a timespan. -/
theorem items_timed (env : ViewEnv) (t : Tree) (items : List TimelineItem) (h : d3timeline env t = some (.ok items)) :
    ∀ i ∈ items, i.times ≠ [] := by
  intro i hi
  obtain ⟨x, _, ts, _, hne, hroot, hother⟩ := item_of_span env t items h i hi
  by_cases hp : x.2.id.parent = 0
  · intro e
    have := hroot hp
    rw [e, RootTimes] at this
    exact hne (by cases hv : validTimes ts with
      | nil => rfl
      | cons a b => rw [hv] at this; cases this)
  · obtain ⟨u, hu, _⟩ := hother hp
    rw [hu]; simp

/-- **C141.**  Whatever buttons were clicked before, after `n + 1` clicks on one button in a row the page has the same items, and any two
of them are in the order of that button, or the other way round after an even number of clicks. -/
theorem clicks_sort (B : Browser) (hB : Browser.Sound B) (env : ViewEnv) (t : Tree) (items : List TimelineItem)
    (h : d3timeline env t = some (.ok items)) (before : List SortBy) (k : SortBy) (hk : before.getLast? ≠ some k) (n : Nat) :
    (clicksSort B items (before ++ List.replicate (n + 1) k)).2.Perm items ∧
      (clicksSort B items (before ++ List.replicate (n + 1) k)).2.Pairwise fun a b =>
        if n % 2 = 0 then MayPrecede B k a b else MayPrecede B k b a := by
  have hl := items_timed env t items h
  refine ⟨(clicks_perm hB items hl _).1, ?_⟩
  have hd := clicks_descending hB items hl before k hk n
  rw [List.replicate_succ', ← List.append_assoc] at hd ⊢
  simp only [clicksSort, List.foldl_append, List.foldl_cons, List.foldl_nil] at hd ⊢
  rw [← List.foldl_append] at hd ⊢
  have hp := (clicks_perm hB items hl (before ++ List.replicate n k)).1
  rw [clicksSort] at hp
  have hs := clickSort_spec hB _ k fun i hi => hl i (hp.subset hi)
  have hc := hs.2.2
  rw [← hs.2.1, hd] at hc
  refine hc.imp ?_
  intro a b hab
  rcases Nat.mod_two_eq_zero_or_one n with h | h <;> simpa [h] using hab

/-- **C141.**  The same holds of what is drawn: the visible items, from top to bottom. -/
theorem clicks_draw (B : Browser) (hB : Browser.Sound B) (env : ViewEnv) (t : Tree) (items : List TimelineItem)
    (h : d3timeline env t = some (.ok items)) (before : List SortBy) (k : SortBy) (hk : before.getLast? ≠ some k) (n : Nat) :
    (drawnItems (clicksSort B items (before ++ List.replicate (n + 1) k)).2).Perm (drawnItems items) ∧
      (drawnItems (clicksSort B items (before ++ List.replicate (n + 1) k)).2).Pairwise fun a b =>
        if n % 2 = 0 then MayPrecede B k a b else MayPrecede B k b a := by
  obtain ⟨h1, h2⟩ := clicks_sort B hB env t items h before k hk n
  exact ⟨h1.filter _, h2.sublist List.filter_sublist⟩

/-- Property C141, in full: "Sort By start time" orders the items by when they start. -/
def SortsByStart : Prop :=
  ∀ (B : Browser), Browser.Sound B → ∀ (env : ViewEnv) (t : Tree) (items : List TimelineItem), d3timeline env t = some (.ok items) →
    (∀ i ∈ items, OrdinaryTimes i) →
      (clicksSort B items [.start]).2.Pairwise fun a b => ∀ x y, StartsAt a x → StartsAt b y → x ≤ y

/-- A browser that sorts by insertion. -/
def plainBrowser : Browser :=
  ⟨id, fun s => s.map fun c => if 65 ≤ c.toNat ∧ c.toNat ≤ 90 then c.toNat + 32 else c.toNat, sortBy'⟩

/-- It is sound. -/
theorem plainBrowser_sound : Browser.Sound plainBrowser where
  perm cmp l _ := sortBy'_perm cmp l
  sorted cmp l h := sortBy'_sorted h l fun _ h => h
  mono _ _ h := h
  exact _ _ _ := rfl

/-- A root span that recorded a query from second 3 to 4 before its own time from second 0 to 9, and a span below it from 1 to 2. -/
def queryFirst : Tree :=
  .node ⟨⟨1, 1, 0⟩, [⟨b!"Name", some b!"root"⟩, ⟨b!"_schema:name", none⟩,
    ⟨b!"ClientSend", some b!"2015-01-01T00:00:03Z"⟩, ⟨b!"ClientRecv", some b!"2015-01-01T00:00:04Z"⟩, ⟨b!"_schema:SQL", none⟩,
    ⟨b!"Span.Start", some b!"2015-01-01T00:00:00Z"⟩, ⟨b!"Span.End", some b!"2015-01-01T00:00:09Z"⟩, ⟨b!"_schema:Timespan", none⟩]⟩
    [.node (namedSpan ⟨1, 2, 1⟩ b!"a" 1 2) []]

/-- The items of a timeline. -/
def itemsOf (env : ViewEnv) (t : Tree) : List TimelineItem := ((d3timeline env t).bind fun r => r.toOption).getD []

/-- They are drawn. -/
theorem queryFirst_ok : d3timeline sampleEnv queryFirst = some (.ok (itemsOf sampleEnv queryFirst)) := by rfl

/-- Their times in seconds of 2015, before and after a click on "Sort By start time": the root comes last although it starts first. -/
theorem queryFirst_sorted :
    (itemsOf sampleEnv queryFirst).map (fun i => i.times.map fun x => (x.start - 1420070400000, x.fin - 1420070400000)) =
        [[(3000, 4000), (0, 9000)], [(1000, 2000)]] ∧
      (clicksSort plainBrowser (itemsOf sampleEnv queryFirst) [.start]).2.map
          (fun i => i.times.map fun x => (x.start - 1420070400000, x.fin - 1420070400000)) =
        [[(1000, 2000)], [(3000, 4000), (0, 9000)]] := by
  constructor <;> decide_cbv

/-- Property C141 is false of the code. -/
theorem sorts_by_start_false : ¬ SortsByStart := by
  intro h
  have hs := h plainBrowser plainBrowser_sound sampleEnv queryFirst _ queryFirst_ok (by
    intro i hi x hx
    have h1 := List.mem_map_of_mem (f := fun i : TimelineItem => i.times.map fun x => (x.start - 1420070400000, x.fin - 1420070400000)) hi
    rw [queryFirst_sorted.1] at h1
    have h2 := List.mem_map_of_mem (f := fun x : TimelineSpan => (x.start - 1420070400000, x.fin - 1420070400000)) hx
    generalize List.map (fun x : TimelineSpan => (x.start - 1420070400000, x.fin - 1420070400000)) i.times = l at h1 h2
    simp only [List.mem_cons, List.not_mem_nil, or_false] at h1
    have h3 : (x.start - 1420070400000, x.fin - 1420070400000) ∈ [((3000 : Int), (4000 : Int)), (0, 9000), (1000, 2000)] := by
      rcases h1 with rfl | rfl <;> revert h2 <;> simp only [List.mem_cons, List.not_mem_nil, or_false] <;> grind
    simp only [List.mem_cons, List.not_mem_nil, or_false, Prod.mk.injEq] at h3
    omega)
  have hm := queryFirst_sorted.2
  obtain ⟨a, l, hl, ha, hm⟩ := List.map_eq_cons_iff.1 hm
  obtain ⟨b, l', hl', hb, _⟩ := List.map_eq_cons_iff.1 hm
  obtain ⟨x, _, hx, hx1, hx2⟩ := List.map_eq_cons_iff.1 ha
  obtain ⟨y, _, hy, hy1, hy2⟩ := List.map_eq_cons_iff.1 hb
  obtain ⟨z, _, hz, hz1, hz2⟩ := List.map_eq_cons_iff.1 hy2
  rw [List.map_eq_nil_iff] at hx2 hz2
  subst hx2 hz2
  simp only [Prod.mk.injEq] at hx1 hy1 hz1
  rw [hl, hl', List.pairwise_cons] at hs
  have := hs.1 b (by simp) x.start z.start
    ⟨⟨x, by simp [hx], rfl⟩, by simp [hx]⟩
    ⟨⟨z, by simp [hy, hz], rfl⟩, by
      intro w hw
      rw [hy, hz] at hw
      simp only [List.mem_cons, List.not_mem_nil, or_false] at hw
      rcases hw with rfl | rfl <;> omega⟩
  omega

/-- Property C141, proved part: it holds where spans without a parent have at most one timed event, and so does what the button
"Sort By end time" says; other spans may have any number. -/
theorem sorts_by_time_partial (B : Browser) (hB : Browser.Sound B) (env : ViewEnv) (t : Tree) (items : List TimelineItem)
    (h : d3timeline env t = some (.ok items)) (hord : ∀ i ∈ items, OrdinaryTimes i)
    (hone : ∀ s ∈ t.spans, s.id.parent = 0 → ∀ ts, spanTimes env.reg s.annotations = some (.ok ts) → (validTimes ts).length ≤ 1)
    (before : List SortBy) (n : Nat) :
    (before.getLast? ≠ some .start →
      (clicksSort B items (before ++ List.replicate (n + 1) .start)).2.Pairwise fun a b =>
        ∀ x y, StartsAt a x → StartsAt b y → if n % 2 = 0 then x ≤ y else y ≤ x) ∧
    (before.getLast? ≠ some .finish →
      (clicksSort B items (before ++ List.replicate (n + 1) .finish)).2.Pairwise fun a b =>
        ∀ x y, EndsAt a x → EndsAt b y → if n % 2 = 0 then x ≤ y else y ≤ x) := by
  have hsingle : ∀ i ∈ items, ∃ u, i.times = [u] := by
    intro i hi
    obtain ⟨x, hx, ts, hts, hne, hroot, hother⟩ := item_of_span env t items h i hi
    by_cases hp : x.2.id.parent = 0
    · have hr := hroot hp
      have := hone x.2 (shown_mem env t 0 x hx) hp ts hts
      have hlen := List.Forall₂.length_eq hr
      have : i.times.length = 1 := by
        have := List.length_pos_iff.2 hne
        omega
      exact List.length_eq_one_iff.1 this
    · obtain ⟨u, hu, _⟩ := hother hp
      exact ⟨u, hu⟩
  constructor
  · intro hk
    obtain ⟨hp, hs⟩ := clicks_sort B hB env t items h before .start hk n
    refine List.Pairwise.imp_of_mem ?_ hs
    intro a b ha hb hab x y hx hy
    obtain ⟨u, hu⟩ := hsingle a (hp.subset ha)
    obtain ⟨v, hv⟩ := hsingle b (hp.subset hb)
    have hua := (hord a (hp.subset ha) u (by simp [hu])).1
    have hvb := (hord b (hp.subset hb) v (by simp [hv])).1
    have hxu : u.start = x := by simpa [hu] using hx.1
    have hyv : v.start = y := by simpa [hv] using hy.1
    have eu := hB.exact _ hua.1 hua.2
    have ev := hB.exact _ hvb.1 hvb.2
    split
    · rename_i e
      rw [if_pos e] at hab
      have := hab u v (by simp [hu]) (by simp [hv])
      omega
    · rename_i e
      rw [if_neg e] at hab
      have := hab v u (by simp [hv]) (by simp [hu])
      omega
  · intro hk
    obtain ⟨hp, hs⟩ := clicks_sort B hB env t items h before .finish hk n
    refine List.Pairwise.imp_of_mem ?_ hs
    intro a b ha hb hab x y hx hy
    obtain ⟨u, hu⟩ := hsingle a (hp.subset ha)
    obtain ⟨v, hv⟩ := hsingle b (hp.subset hb)
    have hua := (hord a (hp.subset ha) u (by simp [hu])).2
    have hvb := (hord b (hp.subset hb) v (by simp [hv])).2
    have hxu : u.fin = x := by simpa [hu] using hx.1
    have hyv : v.fin = y := by simpa [hv] using hy.1
    have eu := hB.exact _ hua.1 hua.2
    have ev := hB.exact _ hvb.1 hvb.2
    split
    · rename_i e
      rw [if_pos e] at hab
      have := hab u v (by simp [hu]) (by simp [hv])
      omega
    · rename_i e
      rw [if_neg e] at hab
      have := hab v u (by simp [hv]) (by simp [hu])
      omega

/-- The sample trace meets the conditions of the proved part. -/
example : d3timeline sampleEnv sampleTrace = some (.ok (itemsOf sampleEnv sampleTrace)) ∧
    ∀ s ∈ sampleTrace.spans, s.id.parent = 0 → ∀ ts, spanTimes sampleEnv.reg s.annotations = some (.ok ts) →
      (validTimes ts).length ≤ 1 := by
  refine ⟨by rfl, ?_⟩
  intro s hs h0 ts hts
  have hall : ∀ s ∈ sampleTrace.spans, s.id.parent = 0 → s = namedSpan ⟨1, 1, 0⟩ b!"root" 0 9 := by decide +kernel
  rw [hall s hs h0] at hts
  have e : spanTimes sampleEnv.reg (namedSpan ⟨1, 1, 0⟩ b!"root" 0 9).annotations =
    some (.ok [(b!"Timespan", ⟨2015, 1, 1, 0, 0, 0, 0, 0⟩, ⟨2015, 1, 1, 0, 0, 9, 0, 0⟩)]) := by rfl
  rw [e] at hts
  cases hts
  decide

/-- The sample trace of three timed spans, sorted by duration, twice, and by label after that. -/
example : (itemsOf sampleEnv sampleTrace).map TimelineItem.label = [b!"root", b!"a", b!"b"] ∧
    (clicksSort plainBrowser (itemsOf sampleEnv sampleTrace) [.duration]).2.map TimelineItem.label = [b!"b", b!"a", b!"root"] ∧
    (clicksSort plainBrowser (itemsOf sampleEnv sampleTrace) [.duration, .duration]).2.map TimelineItem.label =
      [b!"root", b!"a", b!"b"] ∧
    (clicksSort plainBrowser (itemsOf sampleEnv sampleTrace) [.duration, .duration, .label]).2.map TimelineItem.label =
      [b!"a", b!"b", b!"root"] := by
  refine ⟨?_, ?_, ?_, ?_⟩ <;> decide_cbv

end Appdash.TimelineSort
