import Verif.Model.Event

/-!
# Model of `RegisterEvent` and `UnmarshalEvents` with events of pointer types

`Verif.Model.Event` models registered events whose type is not a pointer.  `RegisterEvent` takes any value that implements `Event`, also a
pointer.
-/

namespace Appdash

/-- What is passed to `RegisterEvent` (event.go:112): a value of the type `event`, or a pointer to one. -/
structure Registrable where
  event : EventType
  pointer : Bool

/-- event.go:122 `registeredEvents`, with what was registered. -/
abbrev FullRegistry := AMap Bytes Registrable

/-- event.go:112-120 `RegisterEvent`; `none` is a panic.  The methods of a type are also methods of the pointers to it, so the schema is
that of the type. -/
def registerAny (reg : FullRegistry) (R : Registrable) : Option FullRegistry :=
  match AMap.get reg R.event.schema with
  | some _ => none
  | none => if R.event.schema = [] then none else some (AMap.set reg R.event.schema R)

/-- Several calls of `RegisterEvent`. -/
def registerEach : List Registrable → FullRegistry → Option FullRegistry
  | [], reg => some reg
  | R :: Rs, reg =>
    match registerAny reg R with
    | none => none
    | some reg => registerEach Rs reg

/-- event.go:137-148: the loop of `UnmarshalEvents`.  For a registered pointer, `reflect.New` makes a pointer to a pointer
(event.go:142); that has no methods, so the conversion to `Event` (event.go:143) panics. -/
def unmarshalAnyLoop (reg : FullRegistry) (as : List Annotation) :
    List Bytes → List (Bytes × GVal) → Option (List (Bytes × GVal) × Option EventErr)
  | [], evs => some (evs, none)
  | s :: ss, evs =>
    match AMap.get reg s with
    | none => unmarshalAnyLoop reg as ss evs
    | some R =>
      if R.pointer then none
      else
        match unmarshalEvent R.event as R.event.type.zero with
        | none => none
        | some (_, some err) => some (evs, some err)
        | some (v, none) => unmarshalAnyLoop reg as ss (evs ++ [(s, v)])

/-- event.go:135-149 `UnmarshalEvents` into an empty list. -/
def unmarshalAny (reg : FullRegistry) (as : List Annotation) : Option (List (Bytes × GVal) × Option EventErr) :=
  unmarshalAnyLoop reg as (schemas as) []

end Appdash
