import Mathlib.Data.List.Forall2
import Verif.Spec.Base64
import Verif.Spec.ID
import Verif.Spec.JsonText

/-!
# Specification of the exported form of a trace

As a reader of the JSON document sees it, without the functions of the model.
-/

namespace Appdash.Spec

/-- The text of an ID: sixteen lower-case hexadecimal digits. -/
def IDText (s : Bytes) (id : ID) : Prop := s.length = 16 ∧ (∀ c ∈ s, IsLowerHex c) ∧ hexValue s = some id.toNat

/-- The identifiers of a span: an object with three texts. -/
def ExportedID (v : JVal) (id : SpanID) : Prop :=
  ∃ t s p, v = .obj [(b!"Trace", .str t), (b!"Span", .str s), (b!"Parent", .str p)] ∧
    IDText t id.trace ∧ IDText s id.span ∧ IDText p id.parent

/-- A value of an annotation: null if it is nil, else its bytes as base64. -/
def ExportedValue : JVal → Option Bytes → Prop
  | v, none => v = .null
  | v, some bytes => ∃ t, v = .str t ∧ Base64Written t bytes

/-- An annotation: an object with its key and its value. -/
def ExportedAnnotation (v : JVal) (a : Annotation) : Prop :=
  ∃ k x, v = .obj [(b!"Key", .str k), (b!"Value", x)] ∧ Cleaned a.key k ∧ ExportedValue x a.value

/-- A list whose elements are, one by one, the forms of `l`; null instead, exactly if it is a nil slice. -/
def ExportedList {α : Type} (isNil : Bool) (form : JVal → α → Prop) (v : JVal) (l : List α) : Prop :=
  (isNil = true ∧ l = [] ∧ v = .null) ∨ (¬ (isNil = true ∧ l = []) ∧ ∃ vs, v = .arr vs ∧ List.Forall₂ form vs l)

/-- A trace: an object with the identifiers of its span, the annotations in order and the traces below it in order.  `nils` says which
of the two lists of a span are nil slices. -/
inductive Exported (nils : SpanID → Bool × Bool) : JVal → Tree → Prop where
  | node {s : Span} {ts : List Tree} {i as sub : JVal} (hi : ExportedID i s.id)
      (ha : ExportedList (nils s.id).1 ExportedAnnotation as s.annotations)
      (hn : sub = .null ↔ (nils s.id).2 = true ∧ ts = [])
      (hs : ∀ vs, sub = .arr vs → vs.length = ts.length)
      (hl : sub = .null ∨ ∃ vs, sub = .arr vs)
      (ht : ∀ vs : List JVal, sub = .arr vs → ∀ (j : Nat) v t, vs[j]? = some v → ts[j]? = some t → Exported nils v t) :
      Exported nils (.obj [(b!"ID", i), (b!"Annotations", as), (b!"Sub", sub)]) (.node s ts)

end Appdash.Spec
