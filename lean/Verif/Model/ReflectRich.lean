import Verif.Model.Event

/-!
# Model of `reflect.go` for all kinds of types

`Verif.Model.Reflect` models the types whose values can be read back.  This module models both directions for the other types as well:
pointers, interfaces, types with a `String` method, nested maps and sequences, channels and functions.  Reading is modelled into a fresh
zero value, as `UnmarshalEvents` does (event.go:142).  Simplifications: the keys of a map are scalars or have a `String` method, and are
represented by their texts; methods `String` have a value receiver and do not panic by themselves; types defined from `time.Time` or
`time.Duration` are represented as a struct without exported fields and as a defined integer.
-/

namespace Appdash

/-- A Go type, as `reflect.Type` presents it to reflect.go. -/
inductive RType where
  /-- a predeclared scalar, `time.Time`, `time.Duration`; or a type defined from a predeclared scalar, without a `String` method -/
  | scalar (defined : Bool) (s : ScalarTy)
  /-- a defined type with a `String` method -/
  | named (name : Bytes) (t : RType)
  | ptr (t : RType)
  | iface
  /-- channels, functions, complex numbers and the like -/
  | opaque
  | struct (names : List Bytes) (types : List RType)
  | map (stringKeys : Bool) (elem : RType)
  | slice (elem : RType)
  | array (len : Nat) (elem : RType)

/-- A Go value.  A value of a defined type is represented like one of the type it is defined from. -/
inductive RVal where
  | scalar (s : Scalar)
  /-- a nil pointer or a nil interface -/
  | nil
  | ptr (v : RVal)
  /-- an interface that holds a value of type `dyn` -/
  | iface (dyn : RType) (v : RVal)
  | opaque (id : Nat)
  | struct (fields : List RVal)
  | map (keys : List Bytes) (vals : List RVal)
  | seq (elems : List RVal)

/-- The texts that are made by methods of the program and of the standard library: `time.Time.String`, `time.Duration.String`, the
`String` methods of defined types, and `fmt.Sprintf("%+v", …)`. -/
structure Texts where
  time : GoTime → Bytes
  duration : Int → Bytes
  named : Bytes → RVal → Bytes
  plus : RType → RVal → Bytes

/-- What `o.String()` (reflect.go:23) returns for a pointer to `v`, if the method set of the pointer's type has `String`. -/
def stringOf (S : Texts) : RType → RVal → Option Bytes
  | .scalar false .time, .scalar (.time x) => some (S.time x)
  | .scalar false .duration, .scalar (.duration d) => some (S.duration d)
  | .named n _, v => some (S.named n v)
  | _, _ => none

/-- The method set of the type (and of pointers to it) has `String`. -/
def RType.hasString : RType → Bool
  | .scalar false .time => true
  | .scalar false .duration => true
  | .named _ _ => true
  | _ => false

/-- reflect.go:14-25, 56-57 for a field of interface type: the type switch sees the value that the interface holds, `v.Kind()` is
`Interface`.  `none` is a panic: calling `String` with a nil pointer. -/
def ifaceText (S : Texts) : RType → RVal → Option Bytes
  | .scalar d s, .scalar x =>
    if d = false ∧ (s = .time ∨ s = .duration) then some x.text else some (S.plus (.scalar d s) (.scalar x))
  | .named n _, v => some (S.named n v)
  | .ptr t, .nil => if t.hasString then none else some (S.plus (.ptr t) .nil)
  | .ptr t, .ptr v => some ((stringOf S t v).getD (S.plus (.ptr t) (.ptr v)))
  | t, v => some (S.plus t v)

mutual

/-- reflect.go:13-59 `flattenValue`; `none` is a panic.  A nil pointer has no element, so that `v.Interface()` (reflect.go:14) panics in
the call of reflect.go:29. -/
def flattenR (S : Texts) : RType → Bytes → RVal → Option (List KV)
  | .scalar _ _, pre, .scalar x => some [(pre, x.text)]
  | .named n _, pre, v => some [(pre, S.named n v)]
  | .ptr _, _, .nil => none
  | .ptr t, pre, .ptr v =>
    match stringOf S t v with
    | some s => some [(pre, s)]
    | none => flattenR S t pre v
  | .iface, pre, .nil => some [(pre, b!"<nil>")]
  | .iface, pre, .iface dyn v => (ifaceText S dyn v).map fun s => [(pre, s)]
  | .opaque, pre, v => some [(pre, S.plus .opaque v)]
  | .struct ns ts, pre, .struct vs => flattenRFields S ns ts pre vs
  | .map _ e, pre, .map ks vs => flattenREntries S e pre ks vs
  | .slice e, pre, .seq xs => flattenRSeq S e pre 0 xs
  | .array _ e, pre, .seq xs => flattenRSeq S e pre 0 xs
  | _, _, _ => some []

/-- reflect.go:40-43: the fields of a struct. -/
def flattenRFields (S : Texts) : List Bytes → List RType → Bytes → List RVal → Option (List KV)
  | n :: ns, t :: ts, pre, v :: vs =>
    match flattenR S t (nest pre n) v, flattenRFields S ns ts pre vs with
    | some a, some b => some (a ++ b)
    | _, _ => none
  | _, _, _, _ => some []

/-- reflect.go:44-51: the entries of a map. -/
def flattenREntries (S : Texts) (e : RType) (pre : Bytes) : List Bytes → List RVal → Option (List KV)
  | k :: ks, v :: vs =>
    match flattenR S e (nest pre k) v, flattenREntries S e pre ks vs with
    | some a, some b => some (a ++ b)
    | _, _ => none
  | _, _ => some []

/-- reflect.go:52-55: the elements of a slice or array, from index `i` on. -/
def flattenRSeq (S : Texts) (e : RType) (pre : Bytes) : Nat → List RVal → Option (List KV)
  | i, v :: vs =>
    match flattenR S e (nest pre (formatInt i)) v, flattenRSeq S e pre (i + 1) vs with
    | some a, some b => some (a ++ b)
    | _, _ => none
  | _, [] => some []

end

mutual

/-- The zero value of a type. -/
def RType.zero : RType → RVal
  | .scalar _ s => .scalar s.zero
  | .named _ t => t.zero
  | .ptr _ => .nil
  | .iface => .nil
  | .opaque => .nil
  | .struct _ ts => .struct (zerosR ts)
  | .map _ _ => .map [] []
  | .slice _ => .seq []
  | .array n e => .seq (List.replicate n e.zero)

/-- The zero values of a list of types. -/
def zerosR : List RType → List RVal
  | [] => []
  | t :: ts => t.zero :: zerosR ts

end

/-- The outcome of `parseValue` (reflect.go:82-91) and of the assignment of its result to a place of the same type. -/
inductive Parsed where
  | error
  | panic
  /-- the zero `reflect.Value` -/
  | invalid
  | value (v : RVal)

/-- reflect.go:93-178 `parseValueToPtr` for a pointer type (reflect.go:112-113), with the pointer's element type.  The result is a
pointer to a predeclared type, `time.Time` or `time.Duration`, which can be assigned only to a pointer of exactly this type. -/
def parsePtr : RType → Bytes → Parsed
  | .scalar d s, text =>
    match parseScalar s text with
    | none => .error
    | some x => if d then .panic else .value (.ptr (.scalar x))
  | .named _ t, text =>
    match t with
    | .scalar _ s => if (parseScalar s text).isNone then .error else .panic
    | _ => .invalid
  | .ptr t, text =>
    match parsePtr t text with
    | .value _ => .panic
    | r => r
  | _, _ => .invalid

/-- reflect.go:82-91 `parseValue`, used for the elements of maps and sequences.  For other types `vp` is the zero `reflect.Value`, and
`vp.Elem()` (reflect.go:90) panics. -/
def parseElem : RType → Bytes → Parsed
  | .scalar d s, text =>
    match parseScalar s text with
    | none => .error
    | some x => if d then .panic else .value (.scalar x)
  | .named _ t, text =>
    match t with
    | .scalar _ s => if (parseScalar s text).isNone then .error else .panic
    | _ => .panic
  | .ptr t, text => parsePtr t text
  | _, _ => .panic

/-- What a call of `unflattenValue` with a fresh value leaves behind; `none` is a panic. -/
abbrev ReadR := Option (RVal × List KV × Bool)

/-- reflect.go:251-266: the loop over the pairs for a map.  `SetMapIndex` panics unless the map's keys are strings; with the zero
`reflect.Value` it deletes the key. -/
def mapLoopR (stringKeys : Bool) (elem : RType) (keyPrefix : Bytes) :
    List KV → AMap Bytes RVal → Nat → Option (AMap Bytes RVal × Nat × Bool)
  | [], m, n => some (m, n, false)
  | e :: kv, m, n =>
    if e.1 < keyPrefix then mapLoopR stringKeys elem keyPrefix kv m n
    else if keyPrefix < e.1 ∧ keyPrefix.isPrefixOf e.1 = false then some (m, n, false)
    else
      match parseElem elem e.2 with
      | .error => some (m, n, true)
      | .panic => none
      | .invalid =>
        if stringKeys then mapLoopR stringKeys elem keyPrefix kv (AMap.del m (e.1.drop keyPrefix.length)) (n + 1) else none
      | .value x =>
        if stringKeys then mapLoopR stringKeys elem keyPrefix kv (AMap.set m (e.1.drop keyPrefix.length) x) (n + 1) else none

/-- reflect.go:247-269 `unflattenValue` for a map.  Behind a pointer `v.Set(m)` (reflect.go:268) panics. -/
def readMap (stringKeys : Bool) (elem : RType) (behindPtr : Bool) (pre : Bytes) (kv : List KV) : ReadR :=
  match mapLoopR stringKeys elem (pre ++ [46]) kv [] 0 with
  | none => none
  | some (m, n, err) =>
    let old := if behindPtr then RVal.nil else .map [] []
    if err then some (old, kv.drop n, true)
    else if 0 < n then (if behindPtr then none else some (.map m.keys (m.map Prod.snd), kv.drop n, false))
    else some (old, kv, false)

/-- reflect.go:300-306: store the elements; `none` is a panic, the flag an error. -/
def storeR (elem : RType) : List (Int × Bytes) → List RVal → Option (List RVal × Bool)
  | [], xs => some (xs, false)
  | e :: es, xs =>
    match parseElem elem e.2 with
    | .error => some (xs, true)
    | .value x => if 0 ≤ e.1 ∧ e.1 < xs.length then storeR elem es (xs.set e.1.toNat x) else none
    | _ => none

/-- reflect.go:270-306 `unflattenValue` for a slice (`len` is `none`) or an array. -/
def readSeq (len : Option Nat) (elem : RType) (pre : Bytes) (kv : List KV) : ReadR :=
  let zero := RVal.seq (List.replicate (len.getD 0) elem.zero)
  match dropUntil pre kv with
  | [] => some (zero, [], false)
  | e :: kv =>
    let (elems, rest, err) := seqLoop (pre ++ [46]) (e :: kv)
    if err then some (zero, rest, true)
    else
      match storeR elem elems (List.replicate (len.getD ((maxIndex elems).toNat + 1)) elem.zero) with
      | none => none
      | some (xs, err) => some (.seq xs, rest, err)

/-- reflect.go:270-306 behind a pointer: `v.Index` (reflect.go:305) panics. -/
def readSeqPtr (elem : RType) (pre : Bytes) (kv : List KV) : ReadR :=
  let (elems, rest, err) := seqLoop (pre ++ [46]) kv
  if err then some (.nil, rest, true)
  else
    match elems with
    | [] => some (.nil, rest, false)
    | e :: _ =>
      match parseElem elem e.2 with
      | .error => some (.nil, rest, true)
      | _ => none

/-- reflect.go:211-307 `unflattenValue` behind a nil pointer: `v` is the pointer, the argument is the type `t` that has been reached
through reflect.go:213.  The first of the pairs has the prefix.  `time.Time` is a struct without exported fields. -/
def readPtr : RType → Bytes → List KV → ReadR
  | .ptr t, pre, kv => (readPtr t pre kv).bind fun r => if r.1 matches .nil then some r else none
  | .scalar d s, _, kv =>
    match kv with
    | [] => some (.nil, [], false)
    | e :: rest =>
      if s = .time then some (.nil, e :: rest, false)
      else
        match parsePtr (.scalar d s) e.2 with
        | .error => some (.nil, e :: rest, true)
        | .value x => some (x, rest, false)
        | _ => none
  | .named _ t, pre, kv =>
    match t, kv with
    | .scalar _ s, e :: rest => if (parseScalar s e.2).isNone then some (.nil, e :: rest, true) else none
    | t, kv => readPtr t pre kv
  | .iface, _, _ => none
  | .opaque, _, kv => some (.nil, kv, false)
  | .struct ns _, _, kv => if ns = [] then some (.nil, kv, false) else none
  | .map sk e, pre, kv => readMap sk e true pre kv
  | .slice e, pre, kv => readSeqPtr e pre kv
  | .array _ e, pre, kv => readSeqPtr e pre kv

/-- reflect.go:238-246: the loop over the fields, in the order of their names.  Each entry is a field's name, its position and
`unflattenValue` for its type. -/
def readFields (pre : Bytes) :
    List (Bytes × Nat × (Bytes → List KV → ReadR)) → List RVal → List KV → Option (List RVal × List KV × Bool)
  | [], vs, kv => some (vs, kv, false)
  | (name, i, f) :: fs, vs, kv =>
    match f (nest pre name) kv with
    | none => none
    | some (v', kv', err) =>
      if err then some (vs.set i v', kv', true) else readFields pre fs (vs.set i v') kv'

/-- reflect.go:216-225 for a scalar. -/
def readScalar (defined : Bool) (s : ScalarTy) (pre : Bytes) (kv : List KV) : ReadR :=
  match dropUntil pre kv with
  | [] => some (.scalar s.zero, [], false)
  | e :: rest =>
    match parseScalar s e.2 with
    | none => some (.scalar s.zero, e :: rest, true)
    | some x => if defined then none else some (.scalar x, rest, false)

mutual

/-- reflect.go:180-310 `unflattenValue` into a fresh value.  An interface is nil, and `v.Elem()` (reflect.go:215) of the zero
`reflect.Value` that its element is panics. -/
def unflattenR : RType → Bytes → List KV → ReadR
  | .scalar d s, pre, kv => readScalar d s pre kv
  | .named _ t, pre, kv =>
    match t with
    | .scalar _ s => readScalar true s pre kv
    | t => unflattenR t pre kv
  | .ptr t, pre, kv =>
    match dropUntil pre kv with
    | [] => some (.nil, [], false)
    | e :: kv => readPtr t pre (e :: kv)
  | .iface, pre, kv =>
    match dropUntil pre kv with
    | [] => some (.nil, [], false)
    | _ :: _ => none
  | .opaque, pre, kv => some (.nil, dropUntil pre kv, false)
  | .struct ns ts, pre, kv =>
    match dropUntil pre kv with
    | [] => some (.struct (zerosR ts), [], false)
    | e :: kv =>
      match readFields pre (sortKV (fieldFnsR ns ts 0)) (zerosR ts) (e :: kv) with
      | none => none
      | some (vs, rest, err) => some (.struct vs, rest, err)
  | .map sk e, pre, kv => if kv = [] then some (.map [] [], [], false) else readMap sk e false pre kv
  | .slice e, pre, kv => readSeq none e pre kv
  | .array n e, pre, kv => readSeq (some n) e pre kv

/-- reflect.go:230-237: the exported fields with their names and positions. -/
def fieldFnsR : List Bytes → List RType → Nat → List (Bytes × Nat × (Bytes → List KV → ReadR))
  | n :: ns, t :: ts, i => (n, i, unflattenR t) :: fieldFnsR ns ts (i + 1)
  | _, _, _ => []

end

/-- event.go:16-23 `Event`: a type with a schema, without methods `MarshalEvent` and `UnmarshalEvent`. -/
structure RichEvent where
  schema : Bytes
  type : RType

/-- event.go:42-59 `MarshalEvent`, as a relation between an event and a possible result; `none` is a panic.  The order of the annotations of
a struct's fields and of a map's entries is random in Go, and every order is allowed here. -/
def MarshalsR (S : Texts) (E : RichEvent) (v : RVal) (r : Option (List Annotation)) : Prop :=
  match flattenR S E.type [] v with
  | none => r = none
  | some kvs => ∃ p : List KV, p.Perm kvs ∧ r = some (p.map annotationOf ++ [schemaMarker E.schema])

/-- event.go:74-99 `UnmarshalEvent` into a pointer to a zero value; `none` is a panic. -/
def unmarshalR (E : RichEvent) (as : List Annotation) : Option (RVal × Option EventErr) :=
  if (schemas as).contains E.schema = false then some (E.type.zero, some (.schema (schemas as) E.schema))
  else (unflattenR E.type [] (mapToKVs (stringMap as))).map fun r => (r.1, none)

end Appdash
