import Verif.Prelude

/-!
# Specification vocabulary for IDs

What "hexadecimal numeral" means, written without reference to the model.
-/

namespace Appdash.Spec

/-- The value of a byte as a hexadecimal digit, if it is one of `0-9`, `a-f`, `A-F`. -/
def hexDigitValue (c : UInt8) : Option Nat :=
  match c.toNat with
  | 48 => some 0 | 49 => some 1 | 50 => some 2 | 51 => some 3 | 52 => some 4
  | 53 => some 5 | 54 => some 6 | 55 => some 7 | 56 => some 8 | 57 => some 9
  | 97 => some 10 | 98 => some 11 | 99 => some 12 | 100 => some 13 | 101 => some 14 | 102 => some 15
  | 65 => some 10 | 66 => some 11 | 67 => some 12 | 68 => some 13 | 69 => some 14 | 70 => some 15
  | _ => none

/-- The value of a string of hexadecimal digits (most significant first); `none` if it contains anything else.
The empty string has value 0 here; whether it is acceptable is stated separately. -/
def hexValue : Bytes → Option Nat
  | [] => some 0
  | c :: s =>
    match hexDigitValue c, hexValue s with
    | some d, some r => some (d * 16 ^ s.length + r)
    | _, _ => none

/-- `s` is a non-empty string of hexadecimal digits (either case, leading zeros allowed) of value `v`, and `v` fits
in 64 bits. -/
def IDNumeral (s : Bytes) (v : Nat) : Prop :=
  s ≠ [] ∧ hexValue s = some v ∧ v < 2 ^ 64

/-- Lowercase hexadecimal digit. -/
def IsLowerHex (c : UInt8) : Prop :=
  (48 ≤ c.toNat ∧ c.toNat ≤ 57) ∨ (97 ≤ c.toNat ∧ c.toNat ≤ 102)

end Appdash.Spec
