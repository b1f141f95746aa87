import Verif.Spec.Event

/-!
# Specification of how durations and floating-point numbers in events are read back
-/

namespace Appdash

/-- The finite values of a `float64`: a number of at most 53 bits times a power of two from 2^-1074 on, below 2^1024. -/
def IsFloat64 (k : Nat) : Prop := (∃ m e, m < 2 ^ 53 ∧ k = m * 2 ^ e) ∧ k < 2 ^ (1024 + 1074)

/-- Values of which at least a good approximation is read back: besides those of `ScalarTy.holds`, all durations shorter than 2^52
nanoseconds (about 52 days), and the values of `float64` from 2^-126 up to 2^127. -/
def Approximable : ScalarTy → Scalar → Prop
  | .duration, .duration d => d.natAbs < 2 ^ 52 ∨ ScalarTy.duration.holds (.duration d) = true
  | .float 64, .float (.fin neg k) =>
    (IsFloat64 k ∧ 2 ^ (1074 - 126) ≤ k ∧ k < 2 ^ (1074 + 127)) ∨ (ScalarTy.float 64).holds (.float (.fin neg k)) = true
  | s, x => s.holds x = true

/-- How close the value read back is: a duration by at most one nanosecond towards zero, a floating-point number with the same sign and a
relative error of at most 2^-23, everything else exactly. -/
def CloseTo : Scalar → Scalar → Prop
  | .duration d, .duration d' => d' = d ∨ (0 < d ∧ d' = d - 1) ∨ (d < 0 ∧ d' = d + 1)
  | .float (.fin neg k), .float (.fin neg' k') => neg' = neg ∧ 2 ^ 23 * (k' - k) ≤ k ∧ 2 ^ 23 * (k - k') ≤ k
  | x, x' => x' = x

/-- A user's event with a duration: `type Step struct { Took time.Duration }`. -/
def stepEvent : EventType where
  schema := b!"Step"
  type := .struct [b!"Took"] [.scalar false .duration]

/-- A user's event with a floating-point number and a string: `type Rate struct { Amount float64; Unit string }`. -/
def rateEvent : EventType where
  schema := b!"Rate"
  type := .struct [b!"Amount", b!"Unit"] [.scalar false (.float 64), .scalar false .string]

end Appdash
