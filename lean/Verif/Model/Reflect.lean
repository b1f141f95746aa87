import Verif.Model.TimeFmt
import Verif.Model.Float

/-!
# Model of `reflect.go`: flattening values to key/value pairs and back

Go types and values are represented by the inductive types `GType` and `GVal`.  Modelled: booleans, signed and unsigned
integers of 8 to 64 bits, strings, `time.Time`, `float32`, `float64`, `time.Duration`, structs of any nesting, maps from `string` to
scalars, slices and arrays of scalars.  Not modelled: pointers and interfaces inside events, types with a `String` method, map and sequence elements that are not scalars, map keys
that are not strings.  Unexported fields are ignored by both directions (reflect.go:233, 329) and are left out of `GType`.
A nil and an empty map, and a nil and an empty slice, are not distinguished.  Memory is unlimited: `reflect.MakeSlice` (reflect.go:298) with
a length that cannot be allocated, which panics or ends the process, is not modelled.
-/

namespace Appdash

/-- The scalar Go types that events are made of (the cases of reflect.go:13-39 and reflect.go:93-178).  The number is the
width in bits; Go's `int` and `uint` have 64. -/
inductive ScalarTy where
  | bool
  | int (bits : Nat)
  | uint (bits : Nat)
  | string
  | time
  | float (bits : Nat)
  | duration
deriving DecidableEq, Repr

/-- The values of the scalar types. -/
inductive Scalar where
  | bool (b : Bool)
  | int (i : Int)
  | uint (n : Nat)
  | string (s : Bytes)
  | time (t : GoTime)
  | float (x : GoFloat)
  | duration (d : Int)
deriving DecidableEq, Repr

/-- A Go type, as `reflect.Type` presents it to reflect.go.  A scalar is either the predeclared type (or `time.Time`,
`time.Duration`) or, if `defined`, a type declared with a predeclared type as its underlying type, such as `type Status int`.  A struct has the list of its
fields' names (reflect.go:340-348 `fieldName`: the `trace` tag or the Go name) and the list of their types. -/
inductive GType where
  | scalar (defined : Bool) (s : ScalarTy)
  | struct (names : List Bytes) (types : List GType)
  | map (elem : ScalarTy)
  | slice (elem : ScalarTy)
  | array (len : Nat) (elem : ScalarTy)

/-- A Go value, as `reflect.Value` presents it to reflect.go.  The values of a struct's fields are in the order of its
declaration. -/
inductive GVal where
  | scalar (s : Scalar)
  | struct (fields : List GVal)
  | map (m : AMap Bytes Scalar)
  | seq (elems : List Scalar)

/-- The zero value of a scalar type. -/
def ScalarTy.zero : ScalarTy → Scalar
  | .bool => .bool false
  | .int _ => .int 0
  | .uint _ => .uint 0
  | .string => .string []
  | .time => .time GoTime.zero
  | .float _ => .float (.fin false 0)
  | .duration => .duration 0

mutual

/-- The zero value of a Go type, as `reflect.New(t)` makes it (event.go:142). -/
def GType.zero : GType → GVal
  | .scalar _ s => .scalar s.zero
  | .struct _ ts => .struct (zeros ts)
  | .map _ => .map []
  | .slice _ => .seq []
  | .array n e => .seq (List.replicate n e.zero)

/-- The zero values of a list of types. -/
def zeros : List GType → List GVal
  | [] => []
  | t :: ts => t.zero :: zeros ts

end

/-- A key and its value: the arguments of the callback of `flattenValue`, the elements of the `kv` of `unflattenValue`. -/
abbrev KV := Bytes × Bytes

/-- reflect.go:355-360 `nest`. -/
def nest (pre name : Bytes) : Bytes := if pre = [] then name else pre ++ 46 :: name

/-- reflect.go:14-21, 30-39: the text of a scalar. -/
def Scalar.text : Scalar → Bytes
  | .bool b => formatBool b
  | .int i => formatInt i
  | .uint n => formatDec n
  | .string s => s
  | .time t => formatTime t
  | .float x => formatFloat x
  | .duration d => formatDuration d

/-- reflect.go:52-55: the elements of a slice or array, from index `i` on. -/
def flattenSeq (pre : Bytes) : Nat → List Scalar → List KV
  | _, [] => []
  | i, x :: xs => (nest pre (formatInt i), x.text) :: flattenSeq pre (i + 1) xs

/-- reflect.go:44-51: the entries of a map. -/
def flattenMap (pre : Bytes) (m : AMap Bytes Scalar) : List KV :=
  m.map fun e => (nest pre e.1, e.2.text)

mutual

/-- reflect.go:13-59 `flattenValue`.  Go visits the fields of a struct in random order (reflect.go:41 ranges over a map) and
the entries of a map in random order (reflect.go:45); this function uses the order of declaration and the order of
representation, and `marshalEvent` allows every order. -/
def flatten : GType → Bytes → GVal → List KV
  | .scalar _ _, pre, .scalar x => [(pre, x.text)]
  | .struct ns ts, pre, .struct vs => flattenFields ns ts pre vs
  | .map _, pre, .map m => flattenMap pre m
  | .slice _, pre, .seq xs => flattenSeq pre 0 xs
  | .array _ _, pre, .seq xs => flattenSeq pre 0 xs
  | _, _, _ => []

/-- reflect.go:40-43: the fields of a struct. -/
def flattenFields : List Bytes → List GType → Bytes → List GVal → List KV
  | n :: ns, t :: ts, pre, v :: vs => flatten t (nest pre n) v ++ flattenFields ns ts pre vs
  | _, _, _, _ => []

end

/-- Insert into a list sorted by key. -/
def insertKV {α : Type} (e : Bytes × α) : List (Bytes × α) → List (Bytes × α)
  | [] => [e]
  | f :: l => if e.1 < f.1 then e :: f :: l else f :: insertKV e l

/-- `sort.Sort(kvsByKey(…))` (reflect.go:66) and `sort.Sort(structFieldsByName(…))` (reflect.go:237).  Go's `sort.Sort` is not
stable; where the keys are distinct there is only one sorted order. -/
def sortKV {α : Type} : List (Bytes × α) → List (Bytes × α)
  | [] => []
  | e :: l => insertKV e (sortKV l)

/-- reflect.go:61-68 `mapToKVs`. -/
def mapToKVs (m : AMap Bytes Bytes) : List KV := sortKV m

/-- `int8(vv)` … `int(vv)` (reflect.go:137-151): the low bits as a two's complement number. -/
def wrapInt (bits : Nat) (i : Int) : Int := i.bmod (2 ^ bits)

/-- `uint8(vv)` … `uint(vv)` (reflect.go:158-173): the low bits. -/
def wrapUint (bits : Nat) (n : Nat) : Nat := n % 2 ^ bits

/-- reflect.go:82-91, 93-178 `parseValue`, `parseValueToPtr`; `none` is an error. -/
def parseScalar : ScalarTy → Bytes → Option Scalar
  | .bool, s => (parseBool s).map Scalar.bool
  | .int bits, s => (parseIntDec s).map fun i => Scalar.int (wrapInt bits i)
  | .uint bits, s => (parseUintDec s).map fun n => Scalar.uint (wrapUint bits n)
  | .string, s => some (.string s)
  | .time, s => (parseTime s).map Scalar.time
  | .float _, s => (parseFloat true s).map Scalar.float
  | .duration, s => (parseDuration s).map Scalar.duration

/-- What a call of `unflattenValue` leaves behind: the value, the remaining pairs and whether it returned an error.  `none`
stands for a panic. -/
abbrev Unflattened := Option (GVal × List KV × Bool)

/-- The type of `unflattenValue` for a fixed type: prefix, current value, remaining pairs. -/
abbrev Unflatten := Bytes → GVal → List KV → Unflattened

/-- reflect.go:187-190: drop pairs until one has the prefix. -/
def dropUntil (pre : Bytes) : List KV → List KV
  | [] => []
  | e :: kv => if pre.isPrefixOf e.1 then e :: kv else dropUntil pre kv

/-- reflect.go:184-225 `unflattenValue` for a scalar.  `v.Set(vv)` (reflect.go:224) panics if the field's
type is a defined type, because `vv` has the predeclared type. -/
def unflattenScalar (defined : Bool) (s : ScalarTy) : Unflatten := fun pre v kv =>
  match dropUntil pre kv with
  | [] => some (v, [], false)
  | e :: rest =>
    match parseScalar s e.2 with
    | none => some (v, e :: rest, true)
    | some x => if defined then none else some (.scalar x, rest, false)

/-- reflect.go:251-266: the loop over the pairs for a map.  The result is the map, the number of pairs it took and whether
parsing failed. -/
def mapLoop (elem : ScalarTy) (keyPrefix : Bytes) :
    List KV → AMap Bytes Scalar → Nat → AMap Bytes Scalar × Nat × Bool
  | [], m, n => (m, n, false)
  | e :: kv, m, n =>
    if e.1 < keyPrefix then mapLoop elem keyPrefix kv m n
    else if keyPrefix < e.1 ∧ keyPrefix.isPrefixOf e.1 = false then (m, n, false)
    else
      match parseScalar elem e.2 with
      | none => (m, n, true)
      | some x => mapLoop elem keyPrefix kv (AMap.set m (e.1.drop keyPrefix.length) x) (n + 1)

/-- reflect.go:247-269 `unflattenValue` for a map.  For each entry the loop removes the first remaining pair, whichever it is
(reflect.go:264). -/
def unflattenMap (elem : ScalarTy) : Unflatten := fun pre v kv =>
  let (m, n, err) := mapLoop elem (pre ++ [46]) kv [] 0
  if err then some (v, kv.drop n, true)
  else if 0 < n then some (.map m, kv.drop n, false)
  else some (v, kv, false)

/-- reflect.go:278-295: the loop that collects the elements of a sequence.  The result is the elements, the remaining pairs
and whether an index was not a number. -/
def seqLoop (keyPrefix : Bytes) : List KV → List (Int × Bytes) × List KV × Bool
  | [] => ([], [], false)
  | e :: kv =>
    if keyPrefix.isPrefixOf e.1 then
      match parseIntDec (e.1.drop keyPrefix.length) with
      | none => ([], e :: kv, true)
      | some i =>
        let (elems, rest, err) := seqLoop keyPrefix kv
        ((i, e.2) :: elems, rest, err)
    else ([], e :: kv, false)

/-- reflect.go:277, 290-292: the largest index, at least 0. -/
def maxIndex : List (Int × Bytes) → Int
  | [] => 0
  | e :: l => max e.1 (maxIndex l)

/-- reflect.go:300-306: store the elements.  `none` is the panic of `v.Index(i)` for an index out of range; the flag is a
parse error. -/
def storeElems (elem : ScalarTy) : List (Int × Bytes) → List Scalar → Option (List Scalar × Bool)
  | [], xs => some (xs, false)
  | e :: es, xs =>
    match parseScalar elem e.2 with
    | none => some (xs, true)
    | some x =>
      if 0 ≤ e.1 ∧ e.1 < xs.length then storeElems elem es (xs.set e.1.toNat x) else none

/-- The elements of a sequence value. -/
def GVal.elems : GVal → List Scalar
  | .seq xs => xs
  | _ => []

/-- reflect.go:184-190, 270-306 `unflattenValue` for a slice or an array. -/
def unflattenSeq (isSlice : Bool) (elem : ScalarTy) : Unflatten := fun pre v kv =>
  match dropUntil pre kv with
  | [] => some (v, [], false)
  | e :: kv =>
    let (elems, rest, err) := seqLoop (pre ++ [46]) (e :: kv)
    if err then some (v, rest, true)
    else
      let xs := if isSlice then List.replicate ((maxIndex elems).toNat + 1) elem.zero else v.elems
      match storeElems elem elems xs with
      | none => none
      | some (xs, err) => some (.seq xs, rest, err)

/-- The fields of a struct value. -/
def GVal.fields : GVal → List GVal
  | .struct vs => vs
  | _ => []

/-- reflect.go:238-246: the loop over the fields, in the order of their names.  Each entry is a field's name, its position and
`unflattenValue` for its type. -/
def unflattenFields (pre : Bytes) :
    List (Bytes × Nat × Unflatten) → List GVal → List KV → Option (List GVal × List KV × Bool)
  | [], vs, kv => some (vs, kv, false)
  | (name, i, f) :: fs, vs, kv =>
    match vs[i]? with
    | none => unflattenFields pre fs vs kv
    | some v =>
      match f (nest pre name) v kv with
      | none => none
      | some (v', kv', err) =>
        if err then some (vs.set i v', kv', true) else unflattenFields pre fs (vs.set i v') kv'

mutual

/-- reflect.go:180-310 `unflattenValue`.  The check that the pairs are sorted (reflect.go:181-183) never fails, because
`mapToKVs` sorts them and the function only removes pairs from the front. -/
def unflatten : GType → Unflatten
  | .scalar d s => unflattenScalar d s
  | .struct ns ts => fun pre v kv =>
    match dropUntil pre kv with
    | [] => some (v, [], false)
    | e :: kv =>
      match unflattenFields pre (sortKV (fieldFns ns ts 0)) v.fields (e :: kv) with
      | none => none
      | some (vs, rest, err) => some (.struct vs, rest, err)
  | .map e => unflattenMap e
  | .slice e => unflattenSeq true e
  | .array _ e => unflattenSeq false e

/-- reflect.go:230-237: the exported fields with their names and positions. -/
def fieldFns : List Bytes → List GType → Nat → List (Bytes × Nat × Unflatten)
  | n :: ns, t :: ts, i => (n, i, unflatten t) :: fieldFns ns ts (i + 1)
  | _, _, _ => []

end

end Appdash
