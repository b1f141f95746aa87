import Verif.Spec.Wire

/-!
# Packets with fields that this version does not know

A newer client may send packets with further fields (the protocol buffer's way of extending a format).
-/

namespace Appdash.Spec

/-- A field of any of the types of the protocol buffer encoding: a number, 8 bytes, a string of bytes, a group of fields, 4 bytes. -/
inductive Unknown where
  | varint (tag : Nat) (n : UInt64)
  | fixed64 (tag : Nat) (n : UInt64)
  | bytes (tag : Nat) (b : Bytes)
  | group (tag : Nat) (inner : List Unknown)
  | fixed32 (tag : Nat) (a b c d : UInt8)

/-- The number of the field. -/
def Unknown.tag : Unknown → Nat
  | .varint t _ => t
  | .fixed64 t _ => t
  | .bytes t _ => t
  | .group t _ => t
  | .fixed32 t .. => t

mutual
/-- The encoding of a field. -/
def Unknown.enc : Unknown → Bytes
  | .varint t n => encTag t 0 ++ encVarint n.toNat
  | .fixed64 t n => encTag t 1 ++ leBytes 8 n.toNat
  | .bytes t b => encTag t 2 ++ (encVarint b.length ++ b)
  | .group t us => encTag t 3 ++ (encUnknowns us ++ encTag t 4)
  | .fixed32 t a b c d => encTag t 5 ++ [a, b, c, d]
/-- The encoding of fields, one after another. -/
def encUnknowns : List Unknown → Bytes
  | [] => []
  | u :: us => u.enc ++ encUnknowns us
end

mutual
/-- Tags are at least 1 and less than 2^29, and lengths fit a Go `int`. -/
def Unknown.wf : Unknown → Prop
  | .varint t _ => 0 < t ∧ t < 2 ^ 29
  | .fixed64 t _ => 0 < t ∧ t < 2 ^ 29
  | .bytes t b => (0 < t ∧ t < 2 ^ 29) ∧ b.length < 2 ^ 63
  | .group t us => (0 < t ∧ t < 2 ^ 29) ∧ wfUnknowns us
  | .fixed32 t .. => 0 < t ∧ t < 2 ^ 29
/-- All fields are well formed. -/
def wfUnknowns : List Unknown → Prop
  | [] => True
  | u :: us => u.wf ∧ wfUnknowns us
end

/-- Well-formed fields with tags other than the known ones. -/
def NewFields (known : List Nat) (us : List Unknown) : Prop := ∀ u ∈ us, u.wf ∧ u.tag ∉ known

/-- An annotation with new fields before the key, between key and value, and after the value, and followed by new fields of the packet. -/
structure NewerAnnotation where
  ann : Annotation
  before : List Unknown
  between : List Unknown
  after : List Unknown
  next : List Unknown

/-- The encoding of an annotation with new fields.  (The groups' names and numbers are those of internal/wire/collector.proto.) -/
def NewerAnnotation.enc (a : NewerAnnotation) : Bytes :=
  encTag 5 3 ++ (encUnknowns a.before ++ encBytes 6 a.ann.key ++ encUnknowns a.between ++ encOpt (encBytes 7) a.ann.value ++
    encUnknowns a.after ++ encTag 5 4) ++ encUnknowns a.next

/-- A packet with new fields before the span ID, between its parts, and after it. -/
structure NewerPacket where
  id : SpanID
  before : List Unknown
  first : List Unknown
  second : List Unknown
  third : List Unknown
  fourth : List Unknown
  after : List Unknown
  anns : List NewerAnnotation

/-- The encoding of a packet with new fields. -/
def NewerPacket.enc (p : NewerPacket) : Bytes :=
  encUnknowns p.before ++ (encTag 1 3 ++ (encUnknowns p.first ++ encFixed64 2 p.id.trace ++ encUnknowns p.second ++ encFixed64 3 p.id.span ++
    encUnknowns p.third ++ encFixed64 4 p.id.parent ++ encUnknowns p.fourth ++ encTag 1 4)) ++ encUnknowns p.after ++
    p.anns.flatMap NewerAnnotation.enc

/-- What this version knows of the packet. -/
def NewerPacket.known (p : NewerPacket) : Delivery := (p.id, p.anns.map NewerAnnotation.ann)

/-- The new fields have new numbers, and the packet is within the server's limit. -/
structure NewerPacket.Good (p : NewerPacket) : Prop where
  before : NewFields [1, 5] p.before
  first : NewFields [2, 3, 4] p.first
  second : NewFields [2, 3, 4] p.second
  third : NewFields [2, 3, 4] p.third
  fourth : NewFields [2, 3, 4] p.fourth
  after : NewFields [1, 5] p.after
  anns : ∀ a ∈ p.anns, NewFields [6, 7] a.before ∧ NewFields [6, 7] a.between ∧ NewFields [6, 7] a.after ∧ NewFields [1, 5] a.next
  limit : p.enc.length ≤ 1024 * 1024

end Appdash.Spec
