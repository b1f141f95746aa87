import Verif.Model.Event

/-!
# Specification of event round trips

What it means that a value belongs to a Go type, that two values are equal, and under which conditions on field names and
values the annotations of an event determine it.  Nothing here refers to `flatten` or `unflatten`.
-/

namespace Appdash

/-- `clash p g`: the text `g` is `p` itself, or `p` followed by `.` or by a character that sorts before `.` (a space or one of
`!"#$%&'()*+,-`).  In particular `p` clashes with every `p.x`.  It never clashes with `pX` for a letter, digit or underscore `X`. -/
def clash : Bytes → Bytes → Bool
  | [], [] => true
  | [], b :: _ => decide (b ≤ 46)
  | _ :: _, [] => false
  | a :: p, b :: g => decide (a = b) && clash p g

/-- The lengths of the months of a year of the Gregorian calendar. -/
def monthLengths (year : Nat) : List Nat :=
  [31, if 4 ∣ year ∧ (¬ 100 ∣ year ∨ 400 ∣ year) then 29 else 28, 31, 30, 31, 30, 31, 31, 30, 31, 30, 31]

/-- The date exists and the time of day is from 00:00:00 to 23:59:59. -/
def GoTime.exists (t : GoTime) : Bool :=
  decide (1 ≤ t.month) && decide (1 ≤ t.day) && decide (t.day ≤ (monthLengths t.year).getD (t.month - 1) 0) &&
    decide (t.hour ≤ 23) && decide (t.min ≤ 59) && decide (t.sec ≤ 59)

/-- The finite values of a `float32`: `k / 2^1074` is a number of at most 24 bits times a power of two from 2^-149 on, and less than
2^128 (`fits32_iff` in `Verif.Proofs.ReflectKeys`). -/
def fits32 (k : Nat) : Bool := decide (2 ^ max 925 (k.log2 + 1 - 24) ∣ k) && decide (k < 2 ^ (128 + 1074))

/-- The value of a floating-point field is a value of `float32`. -/
def GoFloat.fits32 : GoFloat → Bool
  | .fin _ k => Appdash.fits32 k
  | _ => true

/-- The values of a scalar type: integers in the range of their width; valid times of the years 0 to 9999 with a zone offset of
whole minutes, less than a day.  Of the values of `float64` only those of `float32`; of the durations only whole milliseconds below 2^53
nanoseconds (about 104 days): the others are not always read back, see C100 and C101. -/
def ScalarTy.holds : ScalarTy → Scalar → Bool
  | .bool, .bool _ => true
  | .int b, .int i => decide (b ∈ [8, 16, 32, 64]) && decide (-2 ^ (b - 1) ≤ i) && decide (i < 2 ^ (b - 1))
  | .uint b, .uint n => decide (b ∈ [8, 16, 32, 64]) && decide (n < 2 ^ b)
  | .string, .string _ => true
  | .time, .time t => t.exists && decide (t.year < 10000) && decide (t.nsec < 10 ^ 9) && decide (t.off.natAbs < 1440)
  | .float b, .float x => decide (b ∈ [32, 64]) && x.fits32
  | .duration, .duration d => decide (1000000 ∣ d) && decide (d.natAbs < 2 ^ 53)
  | _, _ => false

mutual

/-- The values of a Go type.  The length of a slice or array fits an `int`. -/
def GType.holds : GType → GVal → Bool
  | .scalar _ s, .scalar x => s.holds x
  | .struct _ ts, .struct vs => holdsAll ts vs
  | .map e, .map m => decide m.keys.Nodup && m.all fun kv => e.holds kv.2
  | .slice e, .seq xs => decide (xs.length < 2 ^ 63) && xs.all e.holds
  | .array n e, .seq xs => decide (xs.length < 2 ^ 63) && decide (xs.length = n) && xs.all e.holds
  | _, _ => false

/-- The values of a list of Go types. -/
def holdsAll : List GType → List GVal → Bool
  | [], [] => true
  | t :: ts, v :: vs => t.holds v && holdsAll ts vs
  | _, _ => false

end

/-- No name of the list is empty, and none clashes with another. -/
def namesApart : List Bytes → Bool
  | [] => true
  | n :: ns => decide (n ≠ []) && ns.all (fun m => !clash n m && !clash m n) && namesApart ns

mutual

/-- The type has no defined scalar types, and the field names in every struct are apart. -/
def GType.plain : GType → Bool
  | .scalar d _ => !d
  | .struct ns ts => decide (ns.length = ts.length) && namesApart ns && plainAll ts
  | _ => true

/-- All types of the list are plain. -/
def plainAll : List GType → Bool
  | [] => true
  | t :: ts => t.plain && plainAll ts

end

mutual

/-- The value contains a scalar, a non-empty map or a non-empty sequence. -/
def GVal.hasLeaf : GVal → Bool
  | .scalar _ => true
  | .struct vs => anyLeaf vs
  | .map m => !m.isEmpty
  | .seq xs => !xs.isEmpty

/-- A value of the list contains one. -/
def anyLeaf : List GVal → Bool
  | [] => false
  | v :: vs => v.hasLeaf || anyLeaf vs

end

/-- The value is a struct. -/
def GVal.isStruct : GVal → Bool
  | .struct _ => true
  | _ => false

mutual

/-- No sequence in the value is empty, and no struct inside it is without leaf. -/
def GVal.full : GVal → Bool
  | .struct vs => fullAll vs
  | .seq xs => !xs.isEmpty
  | _ => true

/-- So are the values of the list, and no struct among them is without leaf. -/
def fullAll : List GVal → Bool
  | [] => true
  | v :: vs => v.full && (!v.isStruct || v.hasLeaf) && fullAll vs

end

/-- Equality of Go values: maps are equal when they have the same entries, in whatever order they are represented. -/
inductive GVal.Same : GVal → GVal → Prop
  | scalar (s : Scalar) : Same (.scalar s) (.scalar s)
  | struct (vs ws : List GVal) (len : vs.length = ws.length)
      (fields : ∀ (i : Nat) (v w : GVal), vs[i]? = some v → ws[i]? = some w → Same v w) : Same (.struct vs) (.struct ws)
  | map (m n : AMap Bytes Scalar) (entries : ∀ k, AMap.get m k = AMap.get n k) : Same (.map m) (.map n)
  | seq (xs : List Scalar) : Same (.seq xs) (.seq xs)

/-- The names of the fields of a struct type. -/
def GType.names : GType → List Bytes
  | .struct ns _ => ns
  | _ => []

/-- The type is a struct type; none of its field names is empty or begins with `_schema:`. -/
def GType.isRecord : GType → Bool
  | .struct ns _ => ns.all fun n => decide (n ≠ []) && !schemaPrefix.isPrefixOf n
  | _ => false

/-- The event type has no marshalling methods of its own. -/
def EventType.reflective (E : EventType) : Prop := E.marshaler = none ∧ E.unmarshaler = none

/-- The conditions under which an event's annotations determine it. -/
structure Conforms (E : EventType) (v : GVal) : Prop where
  reflective : E.reflective
  record : E.type.isRecord = true
  plain : E.type.plain = true
  holds : E.type.holds v = true
  full : v.full = true

/-- The annotations of a span, cut into pieces: each is what `MarshalEvent` returned for an event, or some other
annotations. -/
abbrev Pieces := List (Option (EventType × GVal) × List Annotation)

/-- The events among the pieces, in order. -/
def Pieces.events (ps : Pieces) : List (EventType × GVal) := ps.filterMap Prod.fst

/-- All annotations, in order. -/
def Pieces.all (ps : Pieces) : List Annotation := ps.flatMap Prod.snd

/-- No field name of the one event clashes with one of the other. -/
def EventType.apart (E F : EventType) : Prop :=
  ∀ n ∈ E.type.names, ∀ m ∈ F.type.names, clash n m = false ∧ clash m n = false

/-- The pieces are a legitimate recording under a registry: every event conforms and is registered, the events' field names
are apart from each other, and the other annotations clash with no field name and mark no registered schema. -/
structure Pieces.Recorded (reg : Registry) (ps : Pieces) : Prop where
  marshalled : ∀ p ∈ ps, ∀ E v, p.1 = some (E, v) → Marshals E v (.ok p.2)
  conforms : ∀ e ∈ ps.events, Conforms e.1 e.2
  registered : ∀ e ∈ ps.events, AMap.get reg e.1.schema = some e.1
  apart : ps.events.Pairwise fun e f => e.1.apart f.1
  others : ∀ p ∈ ps, p.1 = none → ∀ a ∈ p.2, ∀ e ∈ ps.events, ∀ n ∈ e.1.type.names, clash n a.key = false
  unregistered : ∀ p ∈ ps, p.1 = none → ∀ a ∈ p.2, ∀ s, a.key = schemaPrefix ++ s → AMap.get reg s = none

end Appdash
