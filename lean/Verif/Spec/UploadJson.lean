import Verif.Model.Json
import Verif.Spec.ID
import Verif.Spec.Base64

/-!
# Specification vocabulary for uploaded traces

Which traces a JSON value stands for.
-/

namespace Appdash.Spec

/-- The ways to write a letter in a member's name: both cases, the long s (U+017F) for s and the Kelvin sign (U+212A) for k. -/
def spellings (c : UInt8) : List Bytes :=
  if 65 ≤ c.toNat ∧ c.toNat ≤ 90 then both c (UInt8.ofNat (c.toNat + 32))
  else if 97 ≤ c.toNat ∧ c.toNat ≤ 122 then both (UInt8.ofNat (c.toNat - 32)) c
  else [[c]]
where
  /-- The spellings of the letter with these two cases. -/
  both (up low : UInt8) : List Bytes :=
    [[up], [low]] ++ (if low = 115 then [[0xC5, 0xBF]] else []) ++ (if low = 107 then [[0xE2, 0x84, 0xAA]] else [])

/-- The ways to write a name. -/
def spelled : Bytes → List Bytes
  | [] => [[]]
  | c :: name => (spellings c).flatMap fun p => (spelled name).map (p ++ ·)

/-- The values of the members with a name, in order. -/
def valuesOf (name : Bytes) (ms : List (Bytes × JVal)) : List JVal := (ms.filter fun m => (spelled name).contains m.1).map (·.2)

/-- What the last of the values stands for, or `old` if there are none; each of them must stand for something. -/
def LastOf {α : Type} (Reads : JVal → α → Prop) (old : α) (vs : List JVal) (new : α) : Prop :=
  ∃ f : JVal → α, (∀ v ∈ vs, Reads v (f v)) ∧ new = (vs.getLast?.map f).getD old

/-- An ID: a hexadecimal string, an integer, or null for 0. -/
def ReadsID (v : JVal) (i : ID) : Prop :=
  (∃ s, v = .str s ∧ IDNumeral s i.toNat) ∨ v = .num (some i.toNat) ∨ (v = .null ∧ i = 0)

/-- A span ID: an object, whose members change the ID, or null. -/
def ReadsSpanID (old : SpanID) (v : JVal) (new : SpanID) : Prop :=
  (v = .null ∧ new = old) ∨
  ∃ ms, v = .obj ms ∧ LastOf ReadsID old.trace (valuesOf b!"Trace" ms) new.trace ∧
    LastOf ReadsID old.span (valuesOf b!"Span" ms) new.span ∧ LastOf ReadsID old.parent (valuesOf b!"Parent" ms) new.parent

/-- Several values, one after the other: each changes what the ones before have made. -/
def ReadsMany {α : Type} (Reads : α → JVal → α → Prop) : α → List JVal → α → Prop
  | old, [], new => new = old
  | old, v :: vs, new => ∃ mid, Reads old v mid ∧ ReadsMany Reads mid vs new

/-- A string, or null for the old one. -/
def ReadsString (old : Bytes) (v : JVal) (new : Bytes) : Prop := v = .str new ∨ (v = .null ∧ new = old)

/-- A byte: a number, or null for the old one. -/
def ReadsByte (old : UInt8) (v : JVal) (new : UInt8) : Prop := v = .num (some new.toNat) ∨ (v = .null ∧ new = old)

/-- A list: null and the empty array make it empty; each element of another array changes the element at its place in the old list, or
among those that the old list has left behind, or else `zero`. -/
def ReadsSlots {α : Type} (Reads : α → JVal → α → Prop) (zero : α) (old : Slots α) (v : JVal) (new : Slots α) : Prop :=
  ((v = .null ∨ v = .arr []) ∧ new = ⟨[], []⟩) ∨
  ∃ l, v = .arr l ∧ l ≠ [] ∧ new.live.length = l.length ∧ new.spare = (old.live ++ old.spare).drop l.length ∧
    ∀ (i : Nat) (x : JVal) (y : α), l[i]? = some x → new.live[i]? = some y → Reads ((old.live ++ old.spare)[i]?.getD zero) x y

/-- The value of an annotation: base64 (line breaks do not count), which makes a new one, an array of bytes, or null for none. -/
def ReadsValue (old : Option (Slots UInt8)) (v : JVal) (new : Option (Slots UInt8)) : Prop :=
  (v = .null ∧ new = none) ∨ (∃ s b, v = .str s ∧ Base64 (unbroken s) b ∧ new = some ⟨b, []⟩) ∨
  ∃ l n, v = .arr l ∧ new = some n ∧ ReadsSlots ReadsByte 0 (old.getD ⟨[], []⟩) v n

/-- An annotation: an object, whose members change the old one, or null. -/
def ReadsAnnotation (old : JAnn) (v : JVal) (new : JAnn) : Prop :=
  (v = .null ∧ new = old) ∨
  ∃ ms, v = .obj ms ∧ ReadsMany ReadsString old.key (valuesOf b!"Key" ms) new.key ∧
    ReadsMany ReadsValue old.value (valuesOf b!"Value" ms) new.value

/-- A list of annotations. -/
def ReadsAnnotations : Slots JAnn → JVal → Slots JAnn → Prop := ReadsSlots ReadsAnnotation ⟨[], none⟩

mutual
/-- A trace: an object, whose members change the old one, or null for no trace. -/
inductive TraceRead : JTrace → JVal → JTrace → Prop where
  | null (old : JTrace) : TraceRead old .null .nil
  | obj {old : JTrace} {ms : List (Bytes × JVal)} {id : SpanID} {as : Slots JAnn} {sub : Slots JTrace}
      (hid : ReadsMany ReadsSpanID old.id (valuesOf b!"ID" ms) id)
      (has : ReadsMany ReadsAnnotations old.annotations (valuesOf b!"Annotations" ms) as)
      (hsub : TracesRead old.sub (valuesOf b!"Sub" ms) sub) :
      TraceRead old (.obj ms) (.node id as sub.live sub.spare)
/-- Lists of traces, one after the other: see `ReadsMany` and `ReadsSlots`. -/
inductive TracesRead : Slots JTrace → List JVal → Slots JTrace → Prop where
  | nil (old : Slots JTrace) : TracesRead old [] old
  | empty {old new : Slots JTrace} {v : JVal} {vs : List JVal} (h : v = .null ∨ v = .arr []) (hs : TracesRead ⟨[], []⟩ vs new) :
      TracesRead old (v :: vs) new
  | arr {old new : Slots JTrace} {l vs : List JVal} {ts : List JTrace} (hl : l ≠ []) (h : ListRead (old.live ++ old.spare) l ts)
      (hs : TracesRead ⟨ts, (old.live ++ old.spare).drop l.length⟩ vs new) : TracesRead old (.arr l :: vs) new
/-- The elements of an array of traces. -/
inductive ListRead : List JTrace → List JVal → List JTrace → Prop where
  | nil (old : List JTrace) : ListRead old [] []
  | cons {old : List JTrace} {v : JVal} {t : JTrace} {vs : List JVal} {ts : List JTrace} (h : TraceRead (old.headD .nil) v t)
      (hs : ListRead old.tail vs ts) : ListRead old (v :: vs) (t :: ts)
end

/-- The value stands for the trace. -/
def ReadsTrace (v : JVal) (p : PTree) : Prop := ∃ t, TraceRead .nil v t ∧ p = t.result

/-- The value stands for the list of traces. -/
def ReadsTraces (v : JVal) (ps : List PTree) : Prop := ∃ s, TracesRead ⟨[], []⟩ [v] s ∧ ps = JTrace.results s.live

end Appdash.Spec
