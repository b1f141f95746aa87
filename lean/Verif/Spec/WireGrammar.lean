import Verif.Spec.Bits
import Verif.Model.Span

/-!
# The language of the collector protocol

What a sequence of bytes says, according to the encoding of protocol buffers and to internal/wire/collector.proto.  Nothing here
refers to the model of the decoder.
-/

namespace Appdash.Spec

/-- Bytes that are a number in base 128, the low digit first; all bytes but the last have the high bit set.  (Numbers with
superfluous zero digits are allowed.) -/
inductive Base128 : Bytes → Nat → Prop where
  | last (b : UInt8) : b.toNat < 128 → Base128 [b] b.toNat
  | more (b : UInt8) (s : Bytes) (n : Nat) : 128 ≤ b.toNat → Base128 s n → Base128 (b :: s) (b.toNat - 128 + 128 * n)

/-- A number in a message: at most ten bytes, of which 64 bits count. -/
def IsNumber (s : Bytes) (n : Nat) : Prop := s.length ≤ 10 ∧ ∃ v, Base128 s v ∧ n = v % 2 ^ 64

/-- A string of bytes: its length, as a number that fits a signed 64-bit integer, and the bytes. -/
def IsString (s b : Bytes) : Prop := ∃ k, s = k ++ b ∧ IsNumber k b.length ∧ b.length < 2 ^ 63

/-- The contents of a field about which nothing but the type of its encoding is known: a number (0), eight bytes (1), a string (2), the
fields of a group and its end (3), four bytes (5).  A field begins with a number that is eight times the field's number plus the type;
type 4 is the end of a group. -/
inductive IsAnything : Nat → Bytes → Prop where
  | number (s : Bytes) (n : Nat) : IsNumber s n → IsAnything 0 s
  | eight (s : Bytes) : s.length = 8 → IsAnything 1 s
  | string (s b : Bytes) : IsString s b → IsAnything 2 s
  | groupEnd (k : Bytes) (u : Nat) : IsNumber k u → u % 8 = 4 → IsAnything 3 k
  | groupField (k s r : Bytes) (u : Nat) : IsNumber k u → u % 8 ≠ 4 → IsAnything (u % 8) s → IsAnything 3 r → IsAnything 3 (k ++ s ++ r)
  | four (s : Bytes) : s.length = 4 → IsAnything 5 s

/-- Fields, one after another, up to the end; `one number type contents x` says that a field says `x`. -/
inductive AreFields {α : Type} (one : Nat → Nat → Bytes → α → Prop) (isEnd : Bytes → Prop) : Bytes → List α → Prop where
  | done (k : Bytes) : isEnd k → AreFields one isEnd k []
  | field (k s r : Bytes) (u : Nat) (x : α) (xs : List α) : IsNumber k u → u % 8 ≠ 4 → u / 8 ≠ 0 → one (u / 8) (u % 8) s x →
    AreFields one isEnd r xs → AreFields one isEnd (k ++ s ++ r) (x :: xs)

/-- The end of a group. -/
def IsGroupEnd (k : Bytes) : Prop := ∃ u, IsNumber k u ∧ u % 8 = 4

/-- What a field of the group SpanID says. -/
inductive SpanPiece where
  | trace (v : UInt64)
  | span (v : UInt64)
  | parent (v : UInt64)
  | other

/-- The fields of the group SpanID: numbers 2, 3 and 4 are eight bytes, the low one first (type 1; also, as the library lets this
through, type 3); others can be anything. -/
inductive IsSpanPiece : Nat → Nat → Bytes → SpanPiece → Prop where
  | trace (w : Nat) (v : UInt64) : w = 1 ∨ w = 3 → IsSpanPiece 2 w (lowFirst 8 v.toNat) (.trace v)
  | span (w : Nat) (v : UInt64) : w = 1 ∨ w = 3 → IsSpanPiece 3 w (lowFirst 8 v.toNat) (.span v)
  | parent (w : Nat) (v : UInt64) : w = 1 ∨ w = 3 → IsSpanPiece 4 w (lowFirst 8 v.toNat) (.parent v)
  | other (n w : Nat) (s : Bytes) : n ∉ [2, 3, 4] → IsAnything w s → IsSpanPiece n w s .other

/-- What a field of the group Annotation says. -/
inductive AnnotationPiece where
  | key (b : Bytes)
  | value (b : Bytes)
  | other

/-- The fields of the group Annotation: numbers 6 and 7 are strings (type 2; also type 3); others can be anything. -/
inductive IsAnnotationPiece : Nat → Nat → Bytes → AnnotationPiece → Prop where
  | key (w : Nat) (s b : Bytes) : w = 2 ∨ w = 3 → IsString s b → IsAnnotationPiece 6 w s (.key b)
  | value (w : Nat) (s b : Bytes) : w = 2 ∨ w = 3 → IsString s b → IsAnnotationPiece 7 w s (.value b)
  | other (n w : Nat) (s : Bytes) : n ∉ [6, 7] → IsAnything w s → IsAnnotationPiece n w s .other

/-- The last `x` that one of the pieces gives. -/
def lastGiven {α β : Type} (f : α → Option β) (l : List α) : Option β := (l.filterMap f).getLast?

def SpanPiece.trace? : SpanPiece → Option UInt64
  | .trace v => some v
  | _ => none

def SpanPiece.span? : SpanPiece → Option UInt64
  | .span v => some v
  | _ => none

def SpanPiece.parent? : SpanPiece → Option UInt64
  | .parent v => some v
  | _ => none

def AnnotationPiece.key? : AnnotationPiece → Option Bytes
  | .key b => some b
  | _ => none

def AnnotationPiece.value? : AnnotationPiece → Option Bytes
  | .value b => some b
  | _ => none

/-- What a field of a packet says. -/
inductive PacketPiece where
  | spanID (ps : List SpanPiece)
  | annotation (ps : List AnnotationPiece)
  | other

/-- The fields of a packet: number 1 is the group SpanID, which has a trace and a span; number 5 is a group Annotation, which has a key;
others can be anything. -/
inductive IsPacketPiece : Nat → Nat → Bytes → PacketPiece → Prop where
  | spanID (s : Bytes) (ps : List SpanPiece) : AreFields IsSpanPiece IsGroupEnd s ps → lastGiven SpanPiece.trace? ps ≠ none →
    lastGiven SpanPiece.span? ps ≠ none → IsPacketPiece 1 3 s (.spanID ps)
  | annotation (s : Bytes) (ps : List AnnotationPiece) : AreFields IsAnnotationPiece IsGroupEnd s ps →
    lastGiven AnnotationPiece.key? ps ≠ none → IsPacketPiece 5 3 s (.annotation ps)
  | other (n w : Nat) (s : Bytes) : n ∉ [1, 5] → IsAnything w s → IsPacketPiece n w s .other

/-- All that is said about the span ID. -/
def spanPieces (ps : List PacketPiece) : List SpanPiece :=
  ps.flatMap fun
    | .spanID l => l
    | _ => []

/-- The annotations. -/
def annotationGroups (ps : List PacketPiece) : List (List AnnotationPiece) :=
  ps.filterMap fun
    | .annotation l => some l
    | _ => none

/-- A message says that the annotations `as` are collected for the span `id`. -/
def Says (m : Bytes) (id : SpanID) (as : List Annotation) : Prop :=
  ∃ ps, AreFields IsPacketPiece (· = []) m ps ∧
    lastGiven SpanPiece.trace? (spanPieces ps) = some id.trace ∧ lastGiven SpanPiece.span? (spanPieces ps) = some id.span ∧
    lastGiven SpanPiece.parent? (spanPieces ps) = some id.parent ∧
    as = (annotationGroups ps).map fun l => ⟨(lastGiven AnnotationPiece.key? l).getD [], lastGiven AnnotationPiece.value? l⟩

/-- A message with its length before it; the length is at most 1 MiB. -/
def IsFrame (f m : Bytes) : Prop := ∃ k, f = k ++ m ∧ k.length ≤ 10 ∧ Base128 k m.length ∧ m.length ≤ 1024 * 1024

end Appdash.Spec
