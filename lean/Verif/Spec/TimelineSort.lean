import Verif.Model.TimelineSort

/-!
# Specification vocabulary for the buttons that sort the timeline
-/

namespace Appdash.Spec

/-- A consistent comparison function on a set of values (ECMAScript, "Consistent comparator function"). -/
structure Consistent {α : Type} (cmp : α → α → Int) (S : α → Prop) : Prop where
  refl : ∀ a, S a → cmp a a = 0
  symm : ∀ a b, S a → S b → cmp a b = 0 → cmp b a = 0
  flip : ∀ a b, S a → S b → (cmp a b < 0 ↔ 0 < cmp b a)
  eq_trans : ∀ a b c, S a → S b → S c → cmp a b = 0 → cmp b c = 0 → cmp a c = 0
  lt_trans : ∀ a b c, S a → S b → S c → cmp a b < 0 → cmp b c < 0 → cmp a c < 0
  gt_trans : ∀ a b c, S a → S b → S c → 0 < cmp a b → 0 < cmp b c → 0 < cmp a c

/-- What JavaScript promises: with a consistent comparison function, `sort` arranges the same items in its order; integers up to 2^53 are
read as they are and greater ones not out of order. -/
structure Browser.Sound (B : Browser) : Prop where
  perm : ∀ cmp l, Consistent cmp (· ∈ l) → (B.sort cmp l).Perm l
  sorted : ∀ cmp l, Consistent cmp (· ∈ l) → (B.sort cmp l).Pairwise fun a b => cmp a b ≤ 0
  mono : ∀ i j, i ≤ j → B.num i ≤ B.num j
  exact : ∀ i, -2 ^ 53 ≤ i → i ≤ 2 ^ 53 → B.num i = i

/-- In the order of the button, `a` may come before `b`: by the start, the end or the duration of their first timespans, or by their
labels without regard to capital letters. -/
def MayPrecede (B : Browser) : SortBy → TimelineItem → TimelineItem → Prop
  | .start, a, b => ∀ x y, a.times.head? = some x → b.times.head? = some y → B.num x.start ≤ B.num y.start
  | .finish, a, b => ∀ x y, a.times.head? = some x → b.times.head? = some y → B.num x.fin ≤ B.num y.fin
  | .duration, a, b => ∀ x y, a.times.head? = some x → b.times.head? = some y → B.num x.duration ≤ B.num y.duration
  | .label, a, b => ¬ B.lower b.label < B.lower a.label

/-- The time is the earliest at which a timespan of the item starts. -/
def StartsAt (i : TimelineItem) (t : Int) : Prop := (∃ x ∈ i.times, x.start = t) ∧ ∀ x ∈ i.times, t ≤ x.start

/-- The time is the latest at which a timespan of the item ends. -/
def EndsAt (i : TimelineItem) (t : Int) : Prop := (∃ x ∈ i.times, x.fin = t) ∧ ∀ x ∈ i.times, x.fin ≤ t

/-- All times of the item are within 285,000 years of 1970. -/
def OrdinaryTimes (i : TimelineItem) : Prop :=
  ∀ x ∈ i.times, (-2 ^ 53 ≤ x.start ∧ x.start ≤ 2 ^ 53) ∧ (-2 ^ 53 ≤ x.fin ∧ x.fin ≤ 2 ^ 53)

end Appdash.Spec
