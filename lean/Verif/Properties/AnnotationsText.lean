import Verif.Proofs.AnnotationsText

/-!
# C140 — the text of a list of annotations

`Annotations.String` writes one `key="value"` after the other.  `p` says which characters beyond ASCII are printable, a table of the
library that the theorems do not depend on.
-/

namespace Appdash.AnnotationsText
open Appdash.Spec

/-- C140: the text is a line for each annotation, in their order: the key, `=` and the value as a string literal of Go.  The literal takes
up no further line, whatever bytes the value has. -/
theorem annotations_shown (p : Nat → Bool) (as : List Annotation) :
    ∃ lines : List Bytes, List.Forall₂ ShowsAnnotation lines as ∧
      List.Forall₂ (fun line a => (10 : UInt8) ∉ a.key → (10 : UInt8) ∉ line) lines as ∧
      annotationsString p as = (lines.map fun l => l ++ b!"\n").flatten := by
  induction as with
  | nil => exact ⟨[], .nil, .nil, rfl⟩
  | cons a as ih =>
    obtain ⟨lines, h1, h2, h3⟩ := ih
    obtain ⟨t, ht, h⟩ := annotationsString_cons p a as
    refine ⟨(a.key ++ 61 :: 34 :: (t ++ [34])) :: lines, .cons ⟨t, ht, by simp⟩ h1, .cons (fun hk => line_no_newline hk ht) h2, ?_⟩
    rw [h, h3]
    simp

/-- C140: a string literal stands for one string only: the value can be read off. -/
theorem literal_determines (t v v' : Bytes) (h : GoLiteral t v) (h' : GoLiteral t v') : v = v' := literal_unique h v' h'

/-- C140: a value of printable ASCII characters without quotes and backslashes is shown as it is. -/
theorem plain_value_shown (p : Nat → Bool) (k v : Bytes) (h : ∀ c ∈ v, 32 ≤ c.toNat ∧ c.toNat ≤ 126 ∧ c ≠ 34 ∧ c ≠ 92) :
    annotationsString p [⟨k, some v⟩] = k ++ b!"=\"" ++ v ++ b!"\"\n" := by
  simp [annotationsString, goQuote, goQuoteAux_plain p _ v (Nat.le_refl _) h]

example : annotationsString (fun _ => false) [⟨b!"Name", some b!"GET /"⟩, ⟨b!"_schema:name", none⟩] = b!"Name=\"GET /\"\n_schema:name=\"\"\n" := by
  decide +kernel

example : annotationsString (fun _ => false) [⟨b!"k", some [10, 34, 255, 0xc3, 0xa4, 0]⟩] = b!"k=\"\\n\\\"\\xff\\u00e4\\x00\"\n" := by
  decide +kernel

/-- C140, the full statement: the text determines the annotations. -/
def TextDetermines : Prop := ∀ (p : Nat → Bool) (as bs : List Annotation), annotationsString p as = annotationsString p bs → as = bs

/-- C140: it does not: keys are not quoted, so a key can imitate another annotation. -/
theorem text_ambiguous : ¬ TextDetermines := by
  intro h
  have := h (fun _ => false) [⟨b!"a=\"1\"\nb", some b!"2"⟩] [⟨b!"a", some b!"1"⟩, ⟨b!"b", some b!"2"⟩] (by decide +kernel)
  exact absurd this (by decide)

/-- C140: nor does it tell nil values from empty ones. -/
theorem nil_value_shown (p : Nat → Bool) (k : Bytes) : annotationsString p [⟨k, none⟩] = annotationsString p [⟨k, some []⟩] := rfl

/-- C140, partial: where no key has a line feed, equal texts show the same keys and values, in the same order.  Two programs may even
differ in the characters that they take to be printable. -/
theorem text_determines_partial (p q : Nat → Bool) (as bs : List Annotation) (ha : ∀ a ∈ as, (10 : UInt8) ∉ a.key)
    (hb : ∀ b ∈ bs, (10 : UInt8) ∉ b.key) (h : annotationsString p as = annotationsString q bs) : List.Forall₂ ShownAlike as bs :=
  text_inj p q as bs ha hb h

/-- C140: and the same keys and values have the same text. -/
theorem same_text (p : Nat → Bool) (as bs : List Annotation) (h : List.Forall₂ ShownAlike as bs) :
    annotationsString p as = annotationsString p bs := by
  induction h with
  | nil => rfl
  | cons h _ ih =>
    rw [annotationsString, annotationsString, List.flatMap_cons, List.flatMap_cons, h.1, h.2]
    exact congrArg _ ih

example : List.Forall₂ ShownAlike [⟨b!"a", none⟩, ⟨b!"b=\"", some b!"x\n"⟩] [⟨b!"a", some []⟩, ⟨b!"b=\"", some b!"x\n"⟩] :=
  .cons ⟨rfl, rfl⟩ (.cons ⟨rfl, rfl⟩ .nil)

example : ∀ a ∈ ([⟨b!"a", none⟩, ⟨b!"b=\"", some b!"x\n"⟩] : List Annotation), (10 : UInt8) ∉ a.key := by decide

end Appdash.AnnotationsText
