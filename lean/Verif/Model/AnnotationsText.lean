import Verif.Model.Json
import Verif.Model.ID

/-!
# Model of `Annotations.String` (span.go:196-203)

With the formatting of `%q` by package strconv.
-/

namespace Appdash

/-- The code point of a UTF-8 sequence (`utf8.DecodeRune`). -/
def runeOf : Bytes → Nat
  | [a] => a.toNat
  | [a, b] => (a.toNat - 192) * 64 + (b.toNat - 128)
  | [a, b, c] => (a.toNat - 224) * 4096 + (b.toNat - 128) * 64 + (c.toNat - 128)
  | [a, b, c, d] => (a.toNat - 240) * 262144 + (b.toNat - 128) * 4096 + (c.toNat - 128) * 64 + (d.toNat - 128)
  | _ => 0

/-- Hexadecimal digits of a number, lower case, a fixed number of them. -/
def hexFixed : Nat → Nat → Bytes
  | 0, _ => []
  | n + 1, u => hexFixed n (u / 16) ++ [hexDigitChar (u % 16)]

/-- `strconv.IsPrint`; `p` says which characters beyond ASCII are printable (a table of the library). -/
def isPrint (p : Nat → Bool) (r : Nat) : Bool := if r < 128 then decide (32 ≤ r ∧ r ≤ 126) else p r

/-- strconv `appendEscapedRune` for the quote `"`: the character `bs` with the code point `r`. -/
def escapeRune (p : Nat → Bool) (bs : Bytes) (r : Nat) : Bytes :=
  if r = 34 ∨ r = 92 then 92 :: bs
  else if isPrint p r then bs
  else if r = 7 then b!"\\a"
  else if r = 8 then b!"\\b"
  else if r = 12 then b!"\\f"
  else if r = 10 then b!"\\n"
  else if r = 13 then b!"\\r"
  else if r = 9 then b!"\\t"
  else if r = 11 then b!"\\v"
  else if r < 32 ∨ r = 127 then b!"\\x" ++ hexFixed 2 r
  else if r < 0x10000 then b!"\\u" ++ hexFixed 4 r
  else b!"\\U" ++ hexFixed 8 r

/-- strconv `appendQuotedWith`, the part between the quotes.  `n` bounds the number of steps. -/
def goQuoteAux (p : Nat → Bool) : Nat → Bytes → Bytes
  | 0, _ => []
  | _, [] => []
  | n + 1, a :: r =>
    match utf8Len (a :: r) with
    | 0 => b!"\\x" ++ hexFixed 2 a.toNat ++ goQuoteAux p n r
    | k + 1 => escapeRune p (a :: r.take k) (runeOf (a :: r.take k)) ++ goQuoteAux p n (r.drop k)

/-- `strconv.Quote` (`%q`). -/
def goQuote (p : Nat → Bool) (s : Bytes) : Bytes := 34 :: (goQuoteAux p s.length s ++ [34])

/-- span.go:196-203 `Annotations.String`: `fmt.Fprintf(&buf, "%s=%q\n", a.Key, a.Value)` for each annotation. -/
def annotationsString (p : Nat → Bool) (as : List Annotation) : Bytes :=
  as.flatMap fun a => a.key ++ 61 :: (goQuote p (a.value.getD []) ++ [10])

end Appdash
