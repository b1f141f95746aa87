import Verif.Spec.JsonText
import Mathlib.Data.List.Forall2

/-!
# Specification vocabulary for lists of annotations

Interpreted string literals, as the Go language defines them ("String literals" and "Rune literals" of its specification; octal escapes,
which are never written, are left out).
-/

namespace Appdash.Spec

/-- Hexadecimal digits and the number that they are. -/
def HexNumber (ds : Bytes) (u : Nat) : Prop := ∃ xs : List Nat, List.Forall₂ HexDigit ds xs ∧ u = xs.foldl (fun n x => 16 * n + x) 0

/-- The text between the quotes of a string literal, and the string. -/
inductive GoLiteral : Bytes → Bytes → Prop where
  | nil : GoLiteral [] []
  /-- A character that stands for itself. -/
  | char {c : UInt8} {cs t v : Bytes} (hc : IsChar (c :: cs)) (h1 : c ≠ 34) (h2 : c ≠ 92) (h3 : c ≠ 10) (h : GoLiteral t v) :
      GoLiteral (c :: cs ++ t) (c :: cs ++ v)
  /-- The escapes of one character. -/
  | esc {e b : UInt8} {t v : Bytes}
      (he : (e, b) ∈ [(97, 7), (98, 8), (102, 12), (110, 10), (114, 13), (116, 9), (118, 11), (92, 92), ((34, 34) : UInt8 × UInt8)])
      (h : GoLiteral t v) : GoLiteral ([92, e] ++ t) ([b] ++ v)
  /-- A byte. -/
  | byte {ds t v : Bytes} {b : UInt8} (hl : ds.length = 2) (hd : HexNumber ds b.toNat) (h : GoLiteral t v) :
      GoLiteral ((92 :: 120 :: ds) ++ t) ([b] ++ v)
  /-- A code point of four digits. -/
  | short {ds t v : Bytes} {ch : Char} (hl : ds.length = 4) (hd : HexNumber ds ch.toNat) (h : GoLiteral t v) :
      GoLiteral ((92 :: 117 :: ds) ++ t) (String.utf8EncodeChar ch ++ v)
  /-- A code point of eight digits. -/
  | long {ds t v : Bytes} {ch : Char} (hl : ds.length = 8) (hd : HexNumber ds ch.toNat) (h : GoLiteral t v) :
      GoLiteral ((92 :: 85 :: ds) ++ t) (String.utf8EncodeChar ch ++ v)

/-- A line that shows an annotation: the key, an equals sign and the value as a string literal. -/
def ShowsAnnotation (line : Bytes) (a : Annotation) : Prop :=
  ∃ t, GoLiteral t (a.value.getD []) ∧ line = a.key ++ b!"=\"" ++ t ++ b!"\""

/-- The two annotations have the same key and the same bytes as value; nil and empty values are not told apart. -/
def ShownAlike (a b : Annotation) : Prop := a.key = b.key ∧ a.value.getD [] = b.value.getD []

end Appdash.Spec
