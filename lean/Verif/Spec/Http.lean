import Mathlib.Data.List.Forall2
import Verif.Model.Http

/-!
# Specification vocabulary for package httptrace
-/

namespace Appdash

/-- The header has a non-empty first value `v` under the given (canonical) name. -/
def Header.Says (h : Header) (name v : Bytes) : Prop := v ≠ [] ∧ ∃ vs, AMap.get h name = some (v :: vs)

/-- The header is missing, or its first value is empty. -/
def Header.Lacks (h : Header) (name : Bytes) : Prop := ∀ v, ¬ h.Says name v

/-- The same character, or the same ASCII letter in the other case. -/
def SameLetter (a b : UInt8) : Prop :=
  a = b ∨ (65 ≤ a.toNat ∧ a.toNat ≤ 90 ∧ b.toNat = a.toNat + 32) ∨ (97 ≤ a.toNat ∧ a.toNat ≤ 122 ∧ b.toNat + 32 = a.toNat)

/-- The texts differ at most in the case of ASCII letters. -/
def SameText (a b : Bytes) : Prop := List.Forall₂ SameLetter a b

/-- The name is listed among those to be redacted, in any letter case. -/
def Redaction.Lists (red : Redaction) (name : Bytes) : Prop :=
  ∃ v ∈ red.names, (ascii name = true ∧ ascii v = true ∧ SameText name v) ∨ (ascii name = false ∧ red.fold name v = true)

/-- The name equals one of those to be redacted: as text in any letter case or, if one of the two has other than ASCII characters, by the
Unicode folding of package strings. -/
def Redaction.Matches (red : Redaction) (name : Bytes) : Prop :=
  ∃ v ∈ red.names, if ascii name = true ∧ ascii v = true then SameText name v else red.fold name v = true

/-- The characters of header names (RFC 7230, section 3.2.6). -/
def IsTokenByte (c : UInt8) : Prop :=
  (48 ≤ c.toNat ∧ c.toNat ≤ 57) ∨ (65 ≤ c.toNat ∧ c.toNat ≤ 90) ∨ (97 ≤ c.toNat ∧ c.toNat ≤ 122) ∨ c ∈ b!"!#$%&'*+-.^_`|~"

/-- All values under a name, whatever the letter case of the key. -/
def Header.valuesUnder (h : Header) (name : Bytes) : List Bytes := (h.filter fun e => canonicalKey e.1 = name).flatMap Prod.snd

/-- The network delivers a header: the values under a name, whatever its letter case, arrive under the canonical name in some
order. -/
def Delivered (sent received : Header) : Prop := ∀ name, ((AMap.get received name).getD []).Perm (sent.valuesUnder name)

/-- Two header maps have the same names, and the same values except for redacted names. -/
def SameButRedacted (red : Redaction) (h h' : Header) : Prop :=
  List.Forall₂ (fun e e' => e.1 = e'.1 ∧ (red.Matches e.1 ∨ e.2 = e'.2)) h h'

/-- The span is a child of the given one. -/
structure ChildOf (child parent : SpanID) : Prop where
  trace : child.trace = parent.trace
  parent : child.parent = parent.span

/-- The bytes of the body written by a sequence of calls. -/
def written : List WriterOp → Bytes
  | [] => []
  | .write b :: ops => b ++ written ops
  | _ :: ops => written ops

/-- The codes passed to `WriteHeader`. -/
def codes : List WriterOp → List Int
  | [] => []
  | .writeHeader c :: ops => c :: codes ops
  | _ :: ops => codes ops

/-- A well-behaved handler calls `WriteHeader` at most once, with a final status, and before it writes or flushes anything. -/
def WellBehaved : List WriterOp → Prop
  | .writeHeader c :: ops => c ≠ 0 ∧ codes ops = []
  | ops => codes ops = []

end Appdash
