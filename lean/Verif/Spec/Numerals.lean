import Verif.Spec.Rfc3339
import Mathlib.Algebra.Order.Field.Rat
import Mathlib.Algebra.Order.Field.Power
import Mathlib.Algebra.Order.Group.Unbundled.Abs

/-!
# Specification of numbers as text

What the texts of integers, floating-point numbers, durations and truth values denote, without reference to how they are read.
-/

namespace Appdash.Spec

/-- `s` is a decimal integer with an optional sign and denotes `i`. -/
def Integer (s : Bytes) (i : Int) : Prop :=
  ∃ ds k n, 1 ≤ k ∧ Numeral k ds n ∧ (((s = ds ∨ s = b!"+" ++ ds) ∧ i = n) ∨ (s = b!"-" ++ ds ∧ i = -n))

/-- `s` is a decimal number without sign and denotes `v`: digits, with a point before, between or after them, and an optional exponent. -/
def Number (s : Bytes) (v : ℚ) : Prop :=
  ∃ int frac exp n e, int ++ frac ≠ [] ∧ Numeral (int ++ frac).length (int ++ frac) n ∧
    ((s = int ++ exp ∧ frac = []) ∨ s = int ++ b!"." ++ frac ++ exp) ∧
    ((exp = [] ∧ e = 0) ∨ ∃ l x, exp = l :: x ∧ (l = 101 ∨ l = 69) ∧ Integer x e) ∧
    v = n * 10 ^ (e - frac.length)

/-- `s` is a decimal number with an optional sign, and denotes `v` or, if `neg`, `-v`. -/
def Signed (s : Bytes) (neg : Bool) (v : ℚ) : Prop :=
  ∃ x, Number x v ∧ (((s = x ∨ s = b!"+" ++ x) ∧ neg = false) ∨ (s = b!"-" ++ x ∧ neg = true))

/-- The natural numbers that are a number of at most `p` bits times a power of two, which is at least `2^lo`. -/
def Binary (p lo k : Nat) : Prop := ∃ m e, m < 2 ^ p ∧ lo ≤ e ∧ k = m * 2 ^ e

/-- `k` is the one among them that is nearest to `v`.  If two are at the same distance, `k` is the one that is the even multiple of what
they differ by. -/
def Nearest (p lo : Nat) (v : ℚ) (k : Nat) : Prop :=
  Binary p lo k ∧ ∀ k', Binary p lo k' → k' ≠ k →
    |v - k| < |v - k'| ∨ (|v - k| = |v - k'| ∧ ∃ j : Int, (k : Int) = 2 * j * ((k : Int) - k'))

/-- A letter as a small letter. -/
def small (c : UInt8) : UInt8 := if 65 ≤ c.toNat ∧ c.toNat ≤ 90 then UInt8.ofNat (c.toNat + 32) else c

/-- `s` is a text for the floating-point number `x` of `p` bits with exponents from `lo` (counted from -1074) to `hi`: a decimal number
that is nearest to `x`, which must not exceed the range, or infinity or not-a-number in letters of either case. -/
def FloatText (p lo hi : Nat) (s : Bytes) (x : GoFloat) : Prop :=
  (∃ neg v k, Signed s neg v ∧ Nearest p lo (v * 2 ^ 1074) k ∧ k < 2 ^ (hi + 1074) ∧ x = .fin neg k) ∨
    (s.map small = b!"nan" ∧ x = .nan) ∨
    (s.map small ∈ [b!"inf", b!"+inf", b!"infinity", b!"+infinity"] ∧ x = .inf false) ∨
    (s.map small ∈ [b!"-inf", b!"-infinity"] ∧ x = .inf true)

/-- `s` is a text for a `float32`. -/
def Float32Text : Bytes → GoFloat → Prop := FloatText 24 925 128

/-- `s` is a text for a `float64`. -/
def Float64Text : Bytes → GoFloat → Prop := FloatText 53 0 1024

/-- A million times `x`, rounded to a `float64` and then towards zero, is `d`; what is not in the range of an `int64` becomes its smallest
value. -/
def Nanoseconds (x : GoFloat) (d : Int) : Prop :=
  (∃ neg k m, x = .fin neg k ∧ Nearest 53 0 (k * 1000000) m ∧ m < 2 ^ (63 + 1074) ∧
    d = (if neg then -1 else 1) * ((m / 2 ^ 1074 : Nat) : Int)) ∨
  ((∀ neg k, x = .fin neg k → ∃ m, Nearest 53 0 (k * 1000000) m ∧ 2 ^ (63 + 1074) ≤ m) ∧ d = -2 ^ 63)

/-- `s` is a text for the truth value `b`. -/
def BoolText (s : Bytes) (b : Bool) : Prop :=
  (s ∈ [b!"1", b!"t", b!"T", b!"true", b!"TRUE", b!"True"] ∧ b = true) ∨
    (s ∈ [b!"0", b!"f", b!"F", b!"false", b!"FALSE", b!"False"] ∧ b = false)

/-- What a field of a scalar type holds after its text `s` was read. -/
def ReadsAs : ScalarTy → Bytes → Scalar → Prop
  | .bool, s, .bool b => BoolText s b
  | .int bits, s, .int j =>
    ∃ i, Integer s i ∧ -2 ^ 63 ≤ i ∧ i < 2 ^ 63 ∧ (2 ^ bits : Int) ∣ i - j ∧ -2 ^ (bits - 1) ≤ j ∧ j < 2 ^ (bits - 1)
  | .uint bits, s, .uint m => ∃ k n, 1 ≤ k ∧ Numeral k s n ∧ n < 2 ^ 64 ∧ (2 ^ bits : Int) ∣ (n : Int) - m ∧ m < 2 ^ bits
  | .string, s, .string t => t = s
  | .time, s, .time t => TimeText 2 99 99 s t ∨ TimeText 1 99 99 s t
  | .float _, s, .float x => Float32Text s x
  | .duration, s, .duration d => ∃ x, Float64Text s x ∧ Nanoseconds x d
  | _, _, _ => False

/-- What the text `s` denotes, as a value of the type. -/
def Denotes : ScalarTy → Bytes → Scalar → Prop
  | .bool, s, .bool b => BoolText s b
  | .int bits, s, .int i => Integer s i ∧ -2 ^ (bits - 1) ≤ i ∧ i < 2 ^ (bits - 1)
  | .uint bits, s, .uint n => ∃ k, 1 ≤ k ∧ Numeral k s n ∧ n < 2 ^ bits
  | .string, s, .string t => t = s
  | .time, s, .time t => RFC3339 s t
  | .float bits, s, .float x => if bits = 32 then Float32Text s x else Float64Text s x
  | .duration, s, .duration d => ∃ neg v, Signed s neg v ∧ (d : ℚ) = (if neg then -1 else 1) * v * 1000000
  | _, _, _ => False

/-- The last annotation with the key `n` exists and has the value `y`. -/
def LastValue (as : List Annotation) (n y : Bytes) : Prop :=
  ∃ before a after, as = before ++ a :: after ∧ a.key = n ∧ a.value.getD [] = y ∧ ∀ b ∈ after, b.key ≠ n

end Appdash.Spec
