import Verif.Model.Span
import Verif.Model.Bits

/-!
# Model of the collector protocol: packets, their protobuf encoding, and delimited framing

internal/wire/collector.proto, internal/wire/collector.pb.go, collector.go:37-42, span.go:63-78, 240-264.  The protobuf
runtime (github.com/gogo/protobuf `proto` and `io`) is not part of /repo; its encoding of these messages is the proto2
wire format, and its decoder is modelled after the reflection-based `Buffer.unmarshalType` of the generation of the
library for which collector.pb.go was generated.
-/

namespace Appdash

/-! ## Messages -/

/-- internal/wire/collector.pb.go `CollectPacket_SpanID`: pointers are optional values. -/
structure WSpanID where
  trace : Option UInt64 := none
  span : Option UInt64 := none
  parent : Option UInt64 := none
deriving DecidableEq, Repr

/-- internal/wire/collector.pb.go `CollectPacket_Annotation`. -/
structure WAnnotation where
  key : Option Bytes := none
  value : Option Bytes := none
deriving DecidableEq, Repr

/-- internal/wire/collector.pb.go `CollectPacket`.  `XXX_unrecognized` is never looked at and is omitted. -/
structure WPacket where
  spanid : Option WSpanID := none
  annotation : List WAnnotation := []
deriving DecidableEq, Repr

/-- span.go:63-69 `SpanID.wire`. -/
def SpanID.wire (id : SpanID) : WSpanID := { trace := some id.trace, span := some id.span, parent := some id.parent }

/-- span.go:240-252 `Annotations.wire`. -/
def annotationsWire (as : List Annotation) : List WAnnotation := as.map fun a => { key := some a.key, value := a.value }

/-- collector.go:37-42 `newCollectPacket`. -/
def newCollectPacket (s : SpanID) (as : List Annotation) : WPacket :=
  { spanid := some s.wire, annotation := annotationsWire as }

/-- span.go:72-78 `spanIDFromWire`; `none` is a nil pointer dereference (panic). -/
def spanIDFromWire : Option WSpanID → Option SpanID
  | some { trace := some t, span := some s, parent := some p } => some { trace := t, span := s, parent := p }
  | _ => none

/-- span.go:255-264 `annotationsFromWire`; `none` is a nil pointer dereference (panic). -/
def annotationsFromWire : List WAnnotation → Option (List Annotation)
  | [] => some []
  | a :: as =>
    match a.key with
    | none => none
    | some k =>
      match annotationsFromWire as with
      | none => none
      | some l => some ({ key := k, value := a.value } :: l)

/-! ## Encoding -/

/-- Base-128 varint, low group first (proto `EncodeVarint`, encoding/binary `PutUvarint`).  The fuel `n + 1` given by
`encVarint` always suffices. -/
def encVarintLoop : Nat → Nat → Bytes
  | 0, _ => []
  | f + 1, n => if n < 128 then [UInt8.ofNat n] else UInt8.ofNat (n % 128 + 128) :: encVarintLoop f (n / 128)

/-- A varint. -/
def encVarint (n : Nat) : Bytes := encVarintLoop (n + 1) n

/-- A field key: field number and wire type. -/
def encTag (field wire : Nat) : Bytes := encVarint (8 * field + wire)

/-- A `fixed64` field. -/
def encFixed64 (field : Nat) (v : UInt64) : Bytes := encTag field 1 ++ leBytes 8 v.toNat

/-- A `string` or `bytes` field. -/
def encBytes (field : Nat) (v : Bytes) : Bytes := encTag field 2 ++ encVarint v.length ++ v

/-- An optional field: nothing if the pointer (or byte slice) is nil. -/
def encOpt {α : Type} (f : α → Bytes) : Option α → Bytes
  | none => []
  | some a => f a

/-- internal/wire/collector.proto:8-18: the contents of group `SpanID`, with its end tag. -/
def encSpanID (w : WSpanID) : Bytes :=
  encTag 1 3 ++ encOpt (encFixed64 2) w.trace ++ encOpt (encFixed64 3) w.span ++ encOpt (encFixed64 4) w.parent ++
    encTag 1 4

/-- internal/wire/collector.proto:21-30: one group `Annotation`. -/
def encAnnotation (w : WAnnotation) : Bytes :=
  encTag 5 3 ++ encOpt (encBytes 6) w.key ++ encOpt (encBytes 7) w.value ++ encTag 5 4

/-- `proto.Marshal` of a `CollectPacket` whose required fields are set (as those of collector.go:37-42 are). -/
def marshal (p : WPacket) : Bytes := encOpt encSpanID p.spanid ++ p.annotation.flatMap encAnnotation

/-! ## Decoding -/

/-- At most `k` varint bytes. -/
def decVarintLoop : Nat → Bytes → Option (Nat × Bytes)
  | 0, _ => none
  | _ + 1, [] => none
  | k + 1, b :: s =>
    if b.toNat < 128 then some (b.toNat, s)
    else
      match decVarintLoop k s with
      | none => none
      | some (v, r) => some (b.toNat - 128 + 128 * v, r)

/-- proto `DecodeVarint`: at most ten bytes; bits beyond the 64th are lost. -/
def decVarint (s : Bytes) : Option (Nat × Bytes) :=
  match decVarintLoop 10 s with
  | none => none
  | some (v, r) => some (v % 2 ^ 64, r)

/-- proto `DecodeFixed64`. -/
def decFixed64 (s : Bytes) : Option (UInt64 × Bytes) :=
  if s.length < 8 then none else some (UInt64.ofNat (leNat (s.take 8)), s.drop 8)

/-- proto `DecodeRawBytes`: a length that is negative as an `int` or exceeds the rest of the buffer is an error. -/
def decRawBytes (s : Bytes) : Option (Bytes × Bytes) :=
  match decVarint s with
  | none => none
  | some (n, r) => if n ≥ 2 ^ 63 ∨ n > r.length then none else some (r.take n, r.drop n)

/-- proto `Buffer.skip` of a field that is not a group. -/
def skipPlain (wire : Nat) (s : Bytes) : Option Bytes :=
  if wire = 0 then (decVarint s).map Prod.snd
  else if wire = 1 then (if s.length < 8 then none else some (s.drop 8))
  else if wire = 2 then (decRawBytes s).map Prod.snd
  else if wire = 5 then (if s.length < 4 then none else some (s.drop 4))
  else none

/-- proto `Buffer.skip` of a group: skip fields until the matching end-group tag.  The recursion on nested groups is
written with a nesting depth; end-group tags are not compared with start tags.  The fuel bounds the number of tags. -/
def skipGroup : Nat → Nat → Bytes → Option Bytes
  | _, 0, s => some s
  | 0, _ + 1, _ => none
  | f + 1, d + 1, s =>
    match decVarint s with
    | none => none
    | some (u, r) =>
      if u % 8 = 4 then skipGroup f d r
      else if u % 8 = 3 then skipGroup f (d + 2) r
      else
        match skipPlain (u % 8) r with
        | none => none
        | some r => skipGroup f (d + 1) r

/-- proto `Buffer.skip`. -/
def skipField (wire : Nat) (s : Bytes) : Option Bytes :=
  if wire = 3 then skipGroup (s.length + 1) 1 s else skipPlain wire s

/-- proto `Buffer.unmarshalType`: the loop over the fields of a message or group.  `field` decodes one field with the
given number and wire type; `complete` says whether all required fields have been decoded.  A missing required field is
an error here at once; in the library it is remembered and returned at the end.  The fuel bounds the number of fields. -/
def decLoop {σ : Type} (isGroup : Bool) (complete : σ → Bool) (field : σ → Nat → Nat → Bytes → Option (σ × Bytes)) :
    Nat → σ → Bytes → Option (σ × Bytes)
  | 0, _, _ => none
  | _ + 1, st, [] => if isGroup = false ∧ complete st then some (st, []) else none
  | f + 1, st, b :: s =>
    match decVarint (b :: s) with
    | none => none
    | some (u, r) =>
      if u % 8 = 4 then (if isGroup ∧ complete st then some (st, r) else none)
      else if u / 8 = 0 then none
      else
        match field st (u / 8) (u % 8) r with
        | none => none
        | some (st, r) => decLoop isGroup complete field f st r

/-- State of decoding a `SpanID` group: the (possibly already filled) struct, and which required fields have been seen in
this group. -/
structure SpanAcc where
  val : WSpanID
  seenTrace : Bool := false
  seenSpan : Bool := false
deriving DecidableEq, Repr

/-- Fields of group `SpanID` (internal/wire/collector.proto:8-18).  As in the library, wire type 3 is let through to the
field's decoder, any other wrong wire type is an error, and unknown fields are skipped. -/
def spanField (st : SpanAcc) (tag wire : Nat) (s : Bytes) : Option (SpanAcc × Bytes) :=
  if tag = 2 ∨ tag = 3 ∨ tag = 4 then
    if wire = 1 ∨ wire = 3 then
      match decFixed64 s with
      | none => none
      | some (v, r) =>
        some (if tag = 2 then { st with val := { st.val with trace := some v }, seenTrace := true }
          else if tag = 3 then { st with val := { st.val with span := some v }, seenSpan := true }
          else { st with val := { st.val with parent := some v } }, r)
    else none
  else (skipField wire s).map fun r => (st, r)

/-- Fields of group `Annotation` (internal/wire/collector.proto:21-30). -/
def annField (st : WAnnotation) (tag wire : Nat) (s : Bytes) : Option (WAnnotation × Bytes) :=
  if tag = 6 ∨ tag = 7 then
    if wire = 2 ∨ wire = 3 then
      match decRawBytes s with
      | none => none
      | some (v, r) => some (if tag = 6 then { st with key := some v } else { st with value := some v }, r)
    else none
  else (skipField wire s).map fun r => (st, r)

/-- Fields of `CollectPacket` (internal/wire/collector.proto:5-31). -/
def packetField (st : WPacket) (tag wire : Nat) (s : Bytes) : Option (WPacket × Bytes) :=
  if tag = 1 then
    if wire = 3 then
      match decLoop true (fun a : SpanAcc => a.seenTrace && a.seenSpan) spanField (s.length + 1)
          { val := st.spanid.getD {} } s with
      | none => none
      | some (a, r) => some ({ st with spanid := some a.val }, r)
    else none
  else if tag = 5 then
    if wire = 3 then
      match decLoop true (fun a : WAnnotation => a.key.isSome) annField (s.length + 1) {} s with
      | none => none
      | some (a, r) => some ({ st with annotation := st.annotation ++ [a] }, r)
    else none
  else (skipField wire s).map fun r => (st, r)

/-- `proto.Unmarshal` into an empty `CollectPacket`; `none` is an error. -/
def unmarshal (s : Bytes) : Option WPacket :=
  (decLoop false (fun p : WPacket => p.spanid.isSome) packetField (s.length + 1) {} s).map Prod.fst

/-! ## Framing -/

/-- gogo/protobuf/io `varintWriter.WriteMsg`: the length as a varint, then the message. -/
def frame (p : WPacket) : Bytes := encVarint (marshal p).length ++ marshal p

/-- collector.go:23 `maxMessageSize`. -/
def maxMessageSize : Nat := 1 * 1024 * 1024

/-- Result of reading from a connection whose remaining bytes (up to its end) are known. -/
inductive ReadRes (α : Type) where
  | eof
  | err
  | ok (a : α) (rest : Bytes)
deriving DecidableEq, Repr

/-- encoding/binary `ReadUvarint`: end of stream before the first byte is `io.EOF`; an end inside the number, more than
ten bytes, or a value above 64 bits is an error. -/
def readUvarint (s : Bytes) : ReadRes Nat :=
  if s = [] then .eof
  else
    match decVarintLoop 10 s with
    | none => .err
    | some (v, r) => if v ≥ 2 ^ 64 then .err else .ok v r

/-- gogo/protobuf/io `varintReader.ReadMsg`, with the limit of collector.go:450.  `io.ReadFull` reports `io.EOF` if the
stream ends exactly after the length. -/
def readMsg (s : Bytes) : ReadRes WPacket :=
  match readUvarint s with
  | .eof => .eof
  | .err => .err
  | .ok n r =>
    if n > maxMessageSize then .err
    else if r.length < n then (if r = [] then .eof else .err)
    else
      match unmarshal (r.take n) with
      | none => .err
      | some p => .ok p (r.drop n)

/-! ## The server -/

/-- What the server hands to its collector. -/
abbrev Delivery := SpanID × List Annotation

/-- How a connection handler ends. -/
inductive ConnEnd where
  /-- collector.go:455-457: end of stream, no error -/
  | closed
  /-- collector.go:458: `ReadMsg` failed -/
  | readError
  /-- collector.go:473: the collector returned an error -/
  | collectError
  /-- a nil pointer was dereferenced, which ends the whole process -/
  | panicked
deriving DecidableEq, Repr

/-- collector.go:442-475 `CollectorServer.handleConn` reading `s`: the calls made to the collector and how the handler
ends.  `rejects before d` says whether the collector returns an error for `d` after the calls `before`.  Logging is
omitted.  The fuel bounds the number of messages. -/
def handleLoop (rejects : List Delivery → Delivery → Bool) : Nat → List Delivery → Bytes → List Delivery × ConnEnd
  | 0, acc, _ => (acc, .readError)
  | f + 1, acc, s =>
    match readMsg s with
    | .eof => (acc, .closed)
    | .err => (acc, .readError)
    | .ok p rest =>
      match spanIDFromWire p.spanid with
      | none => (acc, .panicked)
      | some id =>
        match annotationsFromWire p.annotation with
        | none => (acc, .panicked)
        | some as =>
          if rejects acc (id, as) then (acc ++ [(id, as)], .collectError)
          else handleLoop rejects f (acc ++ [(id, as)]) rest

/-- collector.go:442-475 `CollectorServer.handleConn`. -/
def handleConn (rejects : List Delivery → Delivery → Bool) (s : Bytes) : List Delivery × ConnEnd :=
  handleLoop rejects (s.length + 1) [] s

end Appdash
