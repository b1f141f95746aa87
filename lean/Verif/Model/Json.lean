import Verif.Model.ID
import Verif.Model.Upload
import Verif.Model.Base64

/-!
# The JSON form of a trace

JSON values are modelled here as values; `Model/JsonText.lean` models their text.  Strings that are not valid UTF-8 are changed
by JSON, which `cleanUTF8` models.  The typed encoding and decoding of
`[]*appdash.Trace` follow the rules of `encoding/json` for the struct types in trace.go:14-17, span.go and id.go.
-/

namespace Appdash

/-- JSON values.  A number is an integer literal or something else. -/
inductive JVal where
  | null
  | bool (b : Bool)
  | num (i : Option Int)
  | str (s : Bytes)
  | arr (l : List JVal)
  | obj (l : List (Bytes × JVal))
deriving Repr, Inhabited

/-- Number of bytes of the UTF-8 sequence at the start of the string (`utf8.DecodeRune`), 0 if there is none. -/
def utf8Len : Bytes → Nat
  | [] => 0
  | a :: r =>
    let cont (c : UInt8) : Bool := decide (128 ≤ c.toNat ∧ c.toNat ≤ 191)
    if a.toNat < 128 then 1
    else if 194 ≤ a.toNat ∧ a.toNat ≤ 223 then
      match r with
      | b :: _ => if cont b then 2 else 0
      | _ => 0
    else if 224 ≤ a.toNat ∧ a.toNat ≤ 239 then
      match r with
      | b :: c :: _ =>
        if cont b && cont c && (decide (a.toNat ≠ 224) || decide (160 ≤ b.toNat)) &&
          (decide (a.toNat ≠ 237) || decide (b.toNat ≤ 159)) then 3 else 0
      | _ => 0
    else if 240 ≤ a.toNat ∧ a.toNat ≤ 244 then
      match r with
      | b :: c :: d :: _ =>
        if cont b && cont c && cont d && (decide (a.toNat ≠ 240) || decide (144 ≤ b.toNat)) &&
          (decide (a.toNat ≠ 244) || decide (b.toNat ≤ 143)) then 4 else 0
      | _ => 0
    else 0

/-- What is left of a string after printing it as JSON and reading it back: every byte that does not belong to a valid
UTF-8 sequence becomes U+FFFD.  `n` is a bound on the number of steps. -/
def cleanUTF8Aux : Nat → Bytes → Bytes
  | 0, _ => []
  | _, [] => []
  | n + 1, a :: r =>
    match utf8Len (a :: r) with
    | 0 => 239 :: 191 :: 189 :: cleanUTF8Aux n r
    | k + 1 => a :: (r.take k ++ cleanUTF8Aux n (r.drop k))

/-- See `cleanUTF8Aux`. -/
def cleanUTF8 (s : Bytes) : Bytes := cleanUTF8Aux s.length s

/-! ## Encoding -/

/-- The value written for a scalar produced by `MarshalJSON`. -/
def JVal.ofScalar : JsonScalar → JVal
  | .str s => .str s
  | .int i => .num (some i)
  | .null => .null
  | .other => .bool false

/-- `SpanID` (span.go:20-34): three `ID` fields, each through `ID.MarshalJSON` (id.go:24-26). -/
def encodeSpanID (id : SpanID) : JVal :=
  .obj [(b!"Trace", .ofScalar id.trace.marshalJSON), (b!"Span", .ofScalar id.span.marshalJSON),
    (b!"Parent", .ofScalar id.parent.marshalJSON)]

/-- `Annotation` (span.go): `Key` as a string, `Value` ([]byte) as base64 or null. -/
def encodeAnnotation (a : Annotation) : JVal :=
  .obj [(b!"Key", .str (cleanUTF8 a.key)),
    (b!"Value", match a.value with
      | none => .null
      | some v => .str (b64Encode v))]

/-- A slice: `nil` is written as null, an empty one as `[]`. -/
def encodeSlice (isNil : Bool) (l : List JVal) : JVal :=
  match isNil, l with
  | true, [] => .null
  | _, l => .arr l

mutual
/-- A `*Trace` (traceapp/app.go:185, 193): the fields of the embedded `Span`, then `Sub`.  `nils` says for which spans
the (empty) slices `Annotations` and `Sub` are nil. -/
def encodeTrace (nils : SpanID → Bool × Bool) : Tree → JVal
  | .node s ts => .obj [(b!"ID", encodeSpanID s.id),
      (b!"Annotations", encodeSlice (nils s.id).1 (s.annotations.map encodeAnnotation)),
      (b!"Sub", encodeSlice (nils s.id).2 (encodeTraces nils ts))]
/-- The elements of a `[]*Trace`. -/
def encodeTraces (nils : SpanID → Bool × Bool) : List Tree → List JVal
  | [] => []
  | t :: ts => encodeTrace nils t :: encodeTraces nils ts
end

/-- traceapp/app.go:185 `json.MarshalIndent([]*appdash.Trace{trace}, …)`: the exported form. -/
def exportTrace (nils : SpanID → Bool × Bool) (tr : Tree) : JVal := .arr [encodeTrace nils tr]

/-! ## Decoding -/

/-- Lower-case ASCII letter. -/
def foldByte (c : UInt8) : UInt8 := if 65 ≤ c.toNat ∧ c.toNat ≤ 90 then UInt8.ofNat (c.toNat + 32) else c

/-- A member name with case removed: ASCII letters are lowered, the long s (U+017F) counts as s and the Kelvin sign (U+212A) as
k. -/
def foldName : Bytes → Bytes
  | [] => []
  | 197 :: 191 :: r => 115 :: foldName r
  | 226 :: 132 :: 170 :: r => 107 :: foldName r
  | c :: r => foldByte c :: foldName r

/-- Member names match field names without regard to case. -/
def isField (name key : Bytes) : Bool := decide (foldName key = name.map foldByte)

/-- What `ID.UnmarshalJSON` sees. -/
def JVal.toScalar : JVal → JsonScalar
  | .str s => .str s
  | .num (some i) => .int i
  | .null => .null
  | _ => .other

/-- Members of a `SpanID` object; unknown members are ignored. -/
def decodeSpanIDMembers (id : SpanID) : List (Bytes × JVal) → Option SpanID
  | [] => some id
  | m :: ms =>
    if isField b!"Trace" m.1 then
      match unmarshalJSONID m.2.toScalar with
      | none => none
      | some i => decodeSpanIDMembers { id with trace := i } ms
    else if isField b!"Span" m.1 then
      match unmarshalJSONID m.2.toScalar with
      | none => none
      | some i => decodeSpanIDMembers { id with span := i } ms
    else if isField b!"Parent" m.1 then
      match unmarshalJSONID m.2.toScalar with
      | none => none
      | some i => decodeSpanIDMembers { id with parent := i } ms
    else decodeSpanIDMembers id ms

/-- Decode into a `SpanID`; null changes nothing. -/
def decodeSpanID (id : SpanID) : JVal → Option SpanID
  | .null => some id
  | .obj ms => decodeSpanIDMembers id ms
  | _ => none

/-- Decode into a `string`; null changes nothing. -/
def decodeString (old : Bytes) : JVal → Option Bytes
  | .null => some old
  | .str s => some s
  | _ => none

/-- A slice while it is decoded: its elements, and what the array has behind them.  If a member is given twice the elements of the
second array are decoded into those of the first; elements that are left over from a longer array stay in memory and come back if a
third array is longer again.  Elements that were never set are zero and not listed. -/
structure Slots (α : Type) where
  live : List α := []
  spare : List α := []
deriving DecidableEq, Repr

/-- `encoding/json` `decodeState.array` for a slice that is not empty: the elements of the array, one after the other, are decoded into
those that are there or into the zero value.  The new elements, and what is left of the old ones. -/
def decodeElems {α : Type} (dec : α → JVal → Option α) (zero : α) : List α → List JVal → Option (List α × List α)
  | old, [] => some ([], old)
  | old, v :: vs =>
    match dec (old.headD zero) v with
    | none => none
    | some x =>
      match decodeElems dec zero old.tail vs with
      | none => none
      | some (xs, rest) => some (x :: xs, rest)

/-- `encoding/json` `decodeState.array`: an empty array makes a new slice. -/
def decodeSlice {α : Type} (dec : α → JVal → Option α) (zero : α) (old : Slots α) : List JVal → Option (Slots α)
  | [] => some {}
  | v :: vs =>
    match decodeElems dec zero (old.live ++ old.spare) (v :: vs) with
    | none => none
    | some (xs, rest) => some ⟨xs, rest⟩

/-- An element of a JSON array decoded into a `[]byte`; null changes nothing. -/
def decodeByte (old : UInt8) : JVal → Option UInt8
  | .null => some old
  | .num (some i) => if 0 ≤ i ∧ i < 256 then some (UInt8.ofNat i.toNat) else none
  | _ => none

/-- Decode into a `[]byte`: base64 text makes a new slice (the bytes behind its end are 0), an array of numbers is decoded into the old
one; null gives nil. -/
def decodeBytes (old : Option (Slots UInt8)) : JVal → Option (Option (Slots UInt8))
  | .null => some none
  | .str s => (b64Decode s).map fun b => some ⟨b, []⟩
  | .arr l => (decodeSlice decodeByte 0 (old.getD {}) l).map some
  | _ => none

/-- An `Annotation` (span.go:169-177) while it is decoded. -/
structure JAnn where
  key : Bytes := []
  value : Option (Slots UInt8) := none
deriving DecidableEq, Repr

/-- The annotation that was decoded. -/
def JAnn.result (a : JAnn) : Annotation := ⟨a.key, a.value.map Slots.live⟩

/-- Members of an `Annotation` object. -/
def decodeAnnotationMembers (a : JAnn) : List (Bytes × JVal) → Option JAnn
  | [] => some a
  | m :: ms =>
    if isField b!"Key" m.1 then
      match decodeString a.key m.2 with
      | none => none
      | some k => decodeAnnotationMembers { a with key := k } ms
    else if isField b!"Value" m.1 then
      match decodeBytes a.value m.2 with
      | none => none
      | some v => decodeAnnotationMembers { a with value := v } ms
    else decodeAnnotationMembers a ms

/-- Decode into an `Annotation`; null changes nothing. -/
def decodeAnnotation (old : JAnn) : JVal → Option JAnn
  | .null => some old
  | .obj ms => decodeAnnotationMembers old ms
  | _ => none

/-- Decode into a slice of annotations; null gives the nil slice. -/
def decodeAnnotations (old : Slots JAnn) : JVal → Option (Slots JAnn)
  | .null => some {}
  | .arr l => decodeSlice decodeAnnotation {} old l
  | _ => none

/-- A `*Trace` (trace.go:14-17) while it is decoded; `subs` and `spare` are the slice `Sub`. -/
inductive JTrace where
  | nil
  | node (id : SpanID) (annotations : Slots JAnn) (subs spare : List JTrace)

/-- The ID, zero if there is no trace yet. -/
def JTrace.id : JTrace → SpanID
  | .nil => ⟨0, 0, 0⟩
  | .node id _ _ _ => id

/-- The annotations, none if there is no trace yet. -/
def JTrace.annotations : JTrace → Slots JAnn
  | .nil => {}
  | .node _ as _ _ => as

/-- The slice `Sub`, nil if there is no trace yet. -/
def JTrace.sub : JTrace → Slots JTrace
  | .nil => {}
  | .node _ _ subs spare => ⟨subs, spare⟩

mutual
/-- The trace that was decoded. -/
def JTrace.result : JTrace → PTree
  | .nil => .nil
  | .node id as subs _ => .node ⟨id, as.live.map JAnn.result⟩ (JTrace.results subs)
/-- The traces that were decoded. -/
def JTrace.results : List JTrace → List PTree
  | [] => []
  | t :: ts => t.result :: JTrace.results ts
end

mutual
/-- Decode into a `*Trace`: null is the nil pointer, and an object is decoded into the trace that is there, or a new one. -/
def decodeTraceInto (old : JTrace) : JVal → Option JTrace
  | .null => some .nil
  | .obj ms => decodeTraceMembers old.id old.annotations old.sub ms
  | _ => none
/-- Members of a `Trace` object. -/
def decodeTraceMembers (id : SpanID) (as : Slots JAnn) (sub : Slots JTrace) : List (Bytes × JVal) → Option JTrace
  | [] => some (.node id as sub.live sub.spare)
  | (k, v) :: ms =>
    if isField b!"ID" k then
      match decodeSpanID id v with
      | none => none
      | some id => decodeTraceMembers id as sub ms
    else if isField b!"Annotations" k then
      match decodeAnnotations as v with
      | none => none
      | some as => decodeTraceMembers id as sub ms
    else if isField b!"Sub" k then
      match decodeSubInto sub v with
      | none => none
      | some sub => decodeTraceMembers id as sub ms
    else decodeTraceMembers id as sub ms
/-- Decode into a `[]*Trace`; null gives the nil slice, an empty array a new slice. -/
def decodeSubInto (old : Slots JTrace) : JVal → Option (Slots JTrace)
  | .null => some {}
  | .arr [] => some {}
  | .arr (v :: vs) =>
    match decodeTraceList (old.live ++ old.spare) (v :: vs) with
    | none => none
    | some (ts, rest) => some ⟨ts, rest⟩
  | _ => none
/-- The elements. -/
def decodeTraceList : List JTrace → List JVal → Option (List JTrace × List JTrace)
  | old, [] => some ([], old)
  | old, v :: vs =>
    match decodeTraceInto (old.headD .nil) v with
    | none => none
    | some t =>
      match decodeTraceList old.tail vs with
      | none => none
      | some (ts, rest) => some (t :: ts, rest)
end

/-- Decode a `*Trace`. -/
def decodeTrace (v : JVal) : Option PTree := (decodeTraceInto .nil v).map JTrace.result

/-- Decode a `[]*Trace`. -/
def decodeSub (v : JVal) : Option (List PTree) := (decodeSubInto {} v).map fun s => JTrace.results s.live

/-- How a request to upload ends. -/
inductive UploadResult where
  | ok
  /-- `json.Unmarshal` fails: the handler returns the error. -/
  | badJSON
  | panic
deriving DecidableEq, Repr

/-- traceapp/app.go:295-310 `App.serveTraceUpload`, given the JSON value in the request body. -/
def serveTraceUpload (ms : MemStore) (body : JVal) : MemStore × UploadResult :=
  match decodeSub body with
  | none => (ms, .badJSON)
  | some ps =>
    match uploadTraces ms ps with
    | (ms, true) => (ms, .ok)
    | (ms, false) => (ms, .panic)

/-- traceapp/app.go:112-126, the permalink part of `App.serveTrace`, given the JSON value in the permalink (see
`Model/Permalink.lean` for the permalink itself). -/
def servePermalink (ms : MemStore) (link : JVal) : MemStore × UploadResult :=
  match decodeTrace link with
  | none => (ms, .badJSON)
  | some p =>
    match uploadTraces ms [p] with
    | (ms, true) => (ms, .ok)
    | (ms, false) => (ms, .panic)

end Appdash
