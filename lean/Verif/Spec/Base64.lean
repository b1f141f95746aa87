import Verif.Prelude

/-!
# Specification vocabulary for base64

RFC 4648, section 4: three bytes are four digits of the alphabet; one or two bytes at the end are two or three digits, filled up with `=`.
The bits of the last digit that belong to no byte may be anything (section 3.5 leaves their check to the decoder).
-/

namespace Appdash.Spec

/-- The 64 digits. -/
def base64Alphabet : Bytes := b!"ABCDEFGHIJKLMNOPQRSTUVWXYZabcdefghijklmnopqrstuvwxyz0123456789+/"

/-- The character is the digit. -/
def IsDigit64 (c : UInt8) (d : Nat) : Prop := base64Alphabet[d]? = some c

/-- The text denotes the bytes. -/
inductive Base64 : Bytes → Bytes → Prop where
  | nil : Base64 [] []
  | one {c0 c1 x : UInt8} {d0 d1 r : Nat} (h0 : IsDigit64 c0 d0) (h1 : IsDigit64 c1 d1)
      (hr : r < 2 ^ 4) (h : d0 * 64 + d1 = x.toNat * 2 ^ 4 + r) : Base64 [c0, c1, 61, 61] [x]
  | two {c0 c1 c2 x y : UInt8} {d0 d1 d2 r : Nat} (h0 : IsDigit64 c0 d0) (h1 : IsDigit64 c1 d1) (h2 : IsDigit64 c2 d2)
      (hr : r < 2 ^ 2) (h : (d0 * 64 + d1) * 64 + d2 = (x.toNat * 256 + y.toNat) * 2 ^ 2 + r) : Base64 [c0, c1, c2, 61] [x, y]
  | three {c0 c1 c2 c3 x y z : UInt8} {d0 d1 d2 d3 : Nat} {text bytes : Bytes} (h0 : IsDigit64 c0 d0) (h1 : IsDigit64 c1 d1)
      (h2 : IsDigit64 c2 d2) (h3 : IsDigit64 c3 d3)
      (h : ((d0 * 64 + d1) * 64 + d2) * 64 + d3 = (x.toNat * 256 + y.toNat) * 256 + z.toNat) (ht : Base64 text bytes) :
      Base64 (c0 :: c1 :: c2 :: c3 :: text) (x :: y :: z :: bytes)

/-- The text is the one that RFC 4648 has encoders write for the bytes: the bits of the last digit that belong to no byte are zero. -/
inductive Base64Written : Bytes → Bytes → Prop where
  | nil : Base64Written [] []
  | one {c0 c1 x : UInt8} {d0 d1 : Nat} (h0 : IsDigit64 c0 d0) (h1 : IsDigit64 c1 d1)
      (h : d0 * 64 + d1 = x.toNat * 2 ^ 4) : Base64Written [c0, c1, 61, 61] [x]
  | two {c0 c1 c2 x y : UInt8} {d0 d1 d2 : Nat} (h0 : IsDigit64 c0 d0) (h1 : IsDigit64 c1 d1) (h2 : IsDigit64 c2 d2)
      (h : (d0 * 64 + d1) * 64 + d2 = (x.toNat * 256 + y.toNat) * 2 ^ 2) : Base64Written [c0, c1, c2, 61] [x, y]
  | three {c0 c1 c2 c3 x y z : UInt8} {d0 d1 d2 d3 : Nat} {text bytes : Bytes} (h0 : IsDigit64 c0 d0) (h1 : IsDigit64 c1 d1)
      (h2 : IsDigit64 c2 d2) (h3 : IsDigit64 c3 d3)
      (h : ((d0 * 64 + d1) * 64 + d2) * 64 + d3 = (x.toNat * 256 + y.toNat) * 256 + z.toNat) (ht : Base64Written text bytes) :
      Base64Written (c0 :: c1 :: c2 :: c3 :: text) (x :: y :: z :: bytes)

/-- The text without its line breaks. -/
def unbroken (text : Bytes) : Bytes := text.filter fun c => c ≠ 13 && c ≠ 10

end Appdash.Spec
