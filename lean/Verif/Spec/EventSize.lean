import Verif.Model.Event

/-!
# Specification: how much memory annotations and the events read from them take

Counted is what grows with the input: the bytes of texts, and one for every annotation, map entry and element of a sequence.  What is the same
for all values of a type, such as a number or the fields of a struct, counts nothing.
-/

namespace Appdash.Spec

/-- The bytes of a text; the other scalars have a fixed size. -/
def scalarSize : Scalar → Nat
  | .string s => s.length
  | _ => 0

mutual

/-- The size of a value. -/
def valueSize : GVal → Nat
  | .scalar x => scalarSize x
  | .struct vs => valuesSize vs
  | .map m => (m.map fun e => 1 + e.1.length + scalarSize e.2).sum
  | .seq xs => (xs.map fun x => 1 + scalarSize x).sum

/-- The size of the values of several fields. -/
def valuesSize : List GVal → Nat
  | [] => 0
  | v :: vs => valueSize v + valuesSize vs

end

/-- The size of a list of events. -/
def eventsSize (evs : List (Bytes × GVal)) : Nat := (evs.map fun e => 1 + valueSize e.2).sum

/-- The size of a list of annotations. -/
def annotationsSize (as : List Annotation) : Nat := (as.map fun a => 1 + a.key.length + (a.value.getD []).length).sum

mutual

/-- The number of fields of a type, those of nested structs counted one by one. -/
def fieldCount : GType → Nat
  | .struct _ ts => fieldCounts ts
  | _ => 1

/-- The number of fields of several types. -/
def fieldCounts : List GType → Nat
  | [] => 0
  | t :: ts => fieldCount t + fieldCounts ts

end

mutual

/-- The type has no slices. -/
def sliceFree : GType → Bool
  | .struct _ ts => sliceFrees ts
  | .slice _ => false
  | _ => true

/-- None of the types has slices. -/
def sliceFrees : List GType → Bool
  | [] => true
  | t :: ts => sliceFree t && sliceFrees ts

end

end Appdash.Spec
