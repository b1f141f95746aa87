import Verif.Spec.TimelineSort
import Mathlib.Data.List.Lex
import Mathlib.Order.Basic
import Mathlib.Algebra.Order.Ring.Int
import Mathlib.Data.List.Induction

/-! # The buttons that sort the timeline -/

namespace Appdash
open Spec

/-- Comparing by keys of a linear order. -/
def cmpKey {α β : Type} [LinearOrder β] (f : α → β) (order : Int) (a b : α) : Int :=
  if f a < f b then order * -1 else if f b < f a then order else 0

theorem cmpKey_consistent {α β : Type} [LinearOrder β] (f : α → β) {order : Int} (ho : order = 1 ∨ order = -1) (S : α → Prop) :
    Consistent (cmpKey f order) S := by
  have key : ∀ a b, (cmpKey f order a b = 0 ↔ f a = f b) ∧
      (cmpKey f order a b < 0 ↔ if order = 1 then f a < f b else f b < f a) ∧
      (0 < cmpKey f order a b ↔ if order = 1 then f b < f a else f a < f b) := by
    intro a b
    unfold cmpKey
    rcases lt_trichotomy (f a) (f b) with h | h | h
    · rcases ho with rfl | rfl <;> simp [h, h.ne, h.not_gt]
    · rcases ho with rfl | rfl <;> simp [h]
    · rcases ho with rfl | rfl <;> simp [h, h.ne', h.not_gt]
  refine ⟨fun a _ => (key a a).1.2 rfl, fun a b _ _ h => (key b a).1.2 ((key a b).1.1 h).symm, fun a b _ _ => ?_,
    fun a b c _ _ _ h1 h2 => (key a c).1.2 (((key a b).1.1 h1).trans ((key b c).1.1 h2)), fun a b c _ _ _ h1 h2 => ?_,
    fun a b c _ _ _ h1 h2 => ?_⟩
  · rw [(key a b).2.1, (key b a).2.2]
  · rw [(key _ _).2.1] at h1 h2 ⊢
    split at h1
    · rename_i e; rw [if_pos e] at h2 ⊢; exact h1.trans h2
    · rename_i e; rw [if_neg e] at h2 ⊢; exact h2.trans h1
  · rw [(key _ _).2.2] at h1 h2 ⊢
    split at h1
    · rename_i e; rw [if_pos e] at h2 ⊢; exact h2.trans h1
    · rename_i e; rw [if_neg e] at h2 ⊢; exact h1.trans h2

theorem cmpKey_le {α β : Type} [LinearOrder β] (f : α → β) (a b : α) :
    (cmpKey f 1 a b ≤ 0 ↔ f a ≤ f b) ∧ (cmpKey f (-1) a b ≤ 0 ↔ f b ≤ f a) := by
  unfold cmpKey
  rcases lt_trichotomy (f a) (f b) with h | h | h
  · simp [h, h.le, h.not_ge]
  · simp [h]
  · simp [h, h.le, h.not_ge, h.not_gt]

theorem Spec.Consistent.congr {α : Type} {cmp cmp' : α → α → Int} {S : α → Prop} (h : Consistent cmp S)
    (e : ∀ a b, S a → S b → cmp' a b = cmp a b) : Consistent cmp' S := by
  constructor
  · intro a ha; rw [e a a ha ha]; exact h.refl a ha
  · intro a b ha hb; rw [e a b ha hb, e b a hb ha]; exact h.symm a b ha hb
  · intro a b ha hb; rw [e a b ha hb, e b a hb ha]; exact h.flip a b ha hb
  · intro a b c ha hb hc; rw [e a b ha hb, e b c hb hc, e a c ha hc]; exact h.eq_trans a b c ha hb hc
  · intro a b c ha hb hc; rw [e a b ha hb, e b c hb hc, e a c ha hc]; exact h.lt_trans a b c ha hb hc
  · intro a b c ha hb hc; rw [e a b ha hb, e b c hb hc, e a c ha hc]; exact h.gt_trans a b c ha hb hc

/-- A number of the first timespan. -/
def headNum (num : Int → Int) (f : TimelineSpan → Int) (a : TimelineItem) : Int := (a.times.head?.map fun x => num (f x)).getD 0

theorem compareTimes_eq (num : Int → Int) (f : TimelineSpan → Int) (order : Int) {a b : TimelineItem} (ha : a.times ≠ []) (hb : b.times ≠ []) :
    compareTimes num f order a b = cmpKey (headNum num f) order a b := by
  unfold compareTimes cmpKey headNum
  cases hA : a.times with
  | nil => exact absurd hA ha
  | cons x xs =>
    cases hB : b.times with
    | nil => exact absurd hB hb
    | cons y ys => rfl

theorem compareLabels_eq (lower : Bytes → List Nat) (order : Int) (a b : TimelineItem) :
    compareLabels lower order a b = cmpKey (fun i : TimelineItem => lower i.label) order a b := by
  unfold compareLabels cmpKey
  dsimp only
  split
  · rfl
  · split <;> rfl

theorem compareItems_consistent (B : Browser) {order : Int} (ho : order = 1 ∨ order = -1) (k : SortBy) (l : List TimelineItem)
    (hl : ∀ i ∈ l, i.times ≠ []) : Consistent (compareItems B order k) (· ∈ l) := by
  cases k
  · exact (cmpKey_consistent (headNum B.num TimelineSpan.start) ho _).congr fun a b ha hb => compareTimes_eq _ _ _ (hl a ha) (hl b hb)
  · exact (cmpKey_consistent (headNum B.num TimelineSpan.fin) ho _).congr fun a b ha hb => compareTimes_eq _ _ _ (hl a ha) (hl b hb)
  · exact (cmpKey_consistent (headNum B.num TimelineSpan.duration) ho _).congr fun a b ha hb => compareTimes_eq _ _ _ (hl a ha) (hl b hb)
  · exact (cmpKey_consistent (fun i : TimelineItem => B.lower i.label) ho _).congr fun a b _ _ => compareLabels_eq _ _ _ _

theorem headNum_le {num : Int → Int} {f : TimelineSpan → Int} {a b : TimelineItem} (h : headNum num f a ≤ headNum num f b) :
    ∀ x y, a.times.head? = some x → b.times.head? = some y → num (f x) ≤ num (f y) := by
  intro x y hx hy
  simpa [headNum, hx, hy] using h

theorem compareItems_order (B : Browser) (k : SortBy) {a b : TimelineItem} (ha : a.times ≠ []) (hb : b.times ≠ []) :
    (compareItems B 1 k a b ≤ 0 → MayPrecede B k a b) ∧ (compareItems B (-1) k a b ≤ 0 → MayPrecede B k b a) := by
  cases k
  · simp only [compareItems, compareTimes_eq _ _ _ ha hb, (cmpKey_le _ a b).1, (cmpKey_le _ a b).2]; exact ⟨headNum_le, headNum_le⟩
  · simp only [compareItems, compareTimes_eq _ _ _ ha hb, (cmpKey_le _ a b).1, (cmpKey_le _ a b).2]; exact ⟨headNum_le, headNum_le⟩
  · simp only [compareItems, compareTimes_eq _ _ _ ha hb, (cmpKey_le _ a b).1, (cmpKey_le _ a b).2]; exact ⟨headNum_le, headNum_le⟩
  · simp only [compareItems, compareLabels_eq, (cmpKey_le _ a b).1, (cmpKey_le _ a b).2]
    exact ⟨fun h => not_lt.2 h, fun h => not_lt.2 h⟩

theorem toggleOrder_order (s : LastSort) (k : SortBy) : (s.toggleOrder k).2 = 1 ∨ (s.toggleOrder k).2 = -1 := by
  unfold LastSort.toggleOrder
  split
  · exact .inl rfl
  · dsimp only; split <;> simp

theorem toggleOrder_name (s : LastSort) (k : SortBy) : (s.toggleOrder k).1.name = some k := by
  unfold LastSort.toggleOrder
  split
  · rfl
  · rename_i h; simpa using h

theorem toggleOrder_desc (s : LastSort) (k : SortBy) :
    (s.toggleOrder k).2 = if (s.toggleOrder k).1.descending then -1 else 1 := by
  unfold LastSort.toggleOrder
  split <;> simp

/-- A click. -/
theorem clickSort_spec {B : Browser} (hB : Browser.Sound B) (st : LastSort × List TimelineItem) (k : SortBy) (hl : ∀ i ∈ st.2, i.times ≠ []) :
    (clickSort B st k).2.Perm st.2 ∧ (clickSort B st k).1 = (st.1.toggleOrder k).1 ∧
      (clickSort B st k).2.Pairwise fun a b =>
        if (st.1.toggleOrder k).1.descending then MayPrecede B k b a else MayPrecede B k a b := by
  have hc := compareItems_consistent B (toggleOrder_order st.1 k) k st.2 hl
  have hp := hB.perm _ _ hc
  have hs := hB.sorted _ _ hc
  refine ⟨hp, rfl, ?_⟩
  refine List.Pairwise.imp_of_mem ?_ hs
  intro a b ha hb hab
  have h := compareItems_order B k (hl a (hp.subset ha)) (hl b (hp.subset hb))
  rw [toggleOrder_desc] at hab
  split
  · rename_i e; rw [if_pos e] at hab; exact h.2 hab
  · rename_i e; rw [if_neg e] at hab; exact h.1 hab

theorem clicks_perm {B : Browser} (hB : Browser.Sound B) (data : List TimelineItem) (hl : ∀ i ∈ data, i.times ≠ []) :
    ∀ clicks : List SortBy, (clicksSort B data clicks).2.Perm data ∧ (clicksSort B data clicks).1.name = clicks.getLast? := by
  intro clicks
  induction clicks using List.reverseRecOn with
  | nil => exact ⟨List.Perm.refl _, rfl⟩
  | append_singleton cs k ih =>
    rw [clicksSort, List.foldl_append, ← clicksSort]
    have h := clickSort_spec hB (clicksSort B data cs) k fun i hi => hl i (ih.1.subset hi)
    refine ⟨h.1.trans ih.1, ?_⟩
    show (clickSort B (clicksSort B data cs) k).1.name = _
    rw [h.2.1, toggleOrder_name]
    simp

theorem clicks_descending {B : Browser} (hB : Browser.Sound B) (data : List TimelineItem) (hl : ∀ i ∈ data, i.times ≠ []) (before : List SortBy)
    (k : SortBy) (hk : before.getLast? ≠ some k) : ∀ n, (clicksSort B data (before ++ List.replicate (n + 1) k)).1 = ⟨some k, decide (n % 2 = 1)⟩
  | 0 => by
    rw [show List.replicate (0 + 1) k = [k] from rfl, clicksSort, List.foldl_append, ← clicksSort]
    have hn := (clicks_perm hB data hl before).2
    show (clickSort B (clicksSort B data before) k).1 = _
    rw [clickSort, LastSort.toggleOrder, if_pos (by rw [hn]; exact hk)]
    rfl
  | n + 1 => by
    have ih := clicks_descending hB data hl before k hk n
    rw [List.replicate_succ', ← List.append_assoc, clicksSort, List.foldl_append, ← clicksSort]
    show (clickSort B (clicksSort B data (before ++ List.replicate (n + 1) k)) k).1 = _
    rw [clickSort, ih, LastSort.toggleOrder, if_neg (by simp)]
    simp only [LastSort.mk.injEq, true_and]
    rcases Nat.mod_two_eq_zero_or_one n with h | h
    · rw [h]; simp; omega
    · rw [h]; simp; omega

/-! ## A sound browser -/

/-- Insertion. -/
def insertBy {α : Type} (cmp : α → α → Int) (a : α) : List α → List α
  | [] => [a]
  | b :: l => if cmp a b ≤ 0 then a :: b :: l else b :: insertBy cmp a l

/-- Insertion sort. -/
def sortBy' {α : Type} (cmp : α → α → Int) (l : List α) : List α := l.foldr (insertBy cmp) []

theorem insertBy_perm {α : Type} (cmp : α → α → Int) (a : α) : ∀ l, (insertBy cmp a l).Perm (a :: l)
  | [] => List.Perm.refl _
  | b :: l => by
    unfold insertBy
    split
    · exact List.Perm.refl _
    · exact ((insertBy_perm cmp a l).cons b).trans (List.Perm.swap ..)

theorem sortBy'_perm {α : Type} (cmp : α → α → Int) : ∀ l, (sortBy' cmp l).Perm l
  | [] => List.Perm.refl _
  | a :: l => (insertBy_perm cmp a _).trans ((sortBy'_perm cmp l).cons a)

theorem Spec.Consistent.le_trans {α : Type} {cmp : α → α → Int} {S : α → Prop} (h : Consistent cmp S) {a b c : α} (ha : S a) (hb : S b) (hc : S c)
    (h1 : cmp a b ≤ 0) (h2 : cmp b c ≤ 0) : cmp a c ≤ 0 := by
  by_contra hn
  have hca : cmp c a < 0 := (h.flip c a hc ha).2 (by omega)
  rcases Int.lt_or_eq_of_le h1 with h1 | h1
  · have := h.lt_trans c a b hc ha hb hca h1
    have := (h.flip c b hc hb).1 this
    omega
  · rcases Int.lt_or_eq_of_le h2 with h2 | h2
    · have := h.lt_trans b c a hb hc ha h2 hca
      have := (h.flip b a hb ha).1 this
      omega
    · have := h.eq_trans a b c ha hb hc h1 h2
      omega

theorem insertBy_sorted {α : Type} {cmp : α → α → Int} {S : α → Prop} (h : Consistent cmp S) (a : α) (ha : S a) : ∀ l, (∀ b ∈ l, S b) →
    l.Pairwise (fun a b => cmp a b ≤ 0) → (insertBy cmp a l).Pairwise fun a b => cmp a b ≤ 0
  | [], _, _ => by simp [insertBy]
  | b :: l, hS, hp => by
    rw [List.pairwise_cons] at hp
    have hb := hS b (by simp)
    unfold insertBy
    split
    · rename_i hab
      rw [List.pairwise_cons, List.pairwise_cons]
      refine ⟨fun c hc => ?_, hp⟩
      rcases List.mem_cons.1 hc with rfl | hc
      · exact hab
      · exact h.le_trans ha hb (hS c (by simp [hc])) hab (hp.1 c hc)
    · rename_i hab
      rw [List.pairwise_cons]
      refine ⟨fun c hc => ?_, insertBy_sorted h a ha l (fun c hc => hS c (by simp [hc])) hp.2⟩
      rcases List.mem_cons.1 ((insertBy_perm cmp a l).subset hc) with rfl | hc
      · have := (h.flip b c hb ha).2 (by omega)
        omega
      · exact hp.1 c hc

theorem sortBy'_sorted {α : Type} {cmp : α → α → Int} {S : α → Prop} (h : Consistent cmp S) : ∀ l, (∀ b ∈ l, S b) →
    (sortBy' cmp l).Pairwise fun a b => cmp a b ≤ 0
  | [], _ => .nil
  | a :: l, hS => insertBy_sorted h a (hS a (by simp)) _ (fun b hb => hS b (by simp [(sortBy'_perm cmp l).subset hb]))
      (sortBy'_sorted h l fun b hb => hS b (by simp [hb]))

end Appdash
