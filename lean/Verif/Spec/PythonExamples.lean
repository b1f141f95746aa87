import Verif.Spec.MixedClients
import Verif.Spec.SampleData

/-!
# Vocabulary for the example programs of the Python client
-/

namespace Appdash.Spec
open Py

/-- Span `i` of the trace `t`: its parent is the span before. -/
def roundID (t : ID) (g : Nat → ID) : Nat → SpanID
  | 0 => ⟨t, g 0, 0⟩
  | i + 1 => ⟨t, g (i + 1), g i⟩

/-- A text of at most 40 characters that means the time `t`.  (Package strict_rfc3339 writes 25 characters.) -/
def StampText (text : Bytes) (t : GoTime) : Prop := RFC3339 text t ∧ text.length ≤ 40

/-- A process whose only thread made the calls `ps` on its socket.  The socket took all bytes, in parts of any size. -/
structure SocketProcess (ops : List SockOp) (ps : List Packet) : Prop where
  thread : ∀ op ∈ ops, op.thread = 0
  unfailing : ∀ op ∈ ops, op.fails = false
  only : ∀ t p, SockOp.collect t p ∈ ops → p ∈ ps
  all : returned (Sock.run {} ops) = ps

/-- The events of span `i` as Go values: the name, the query with the times of its sending and of its answer, and on every other span a log. -/
def roundEvents (send recv log : GoTime) (i : Nat) : List (Bytes × GVal) :=
  [(b!"name", .struct [.scalar (.string (if i = 0 then b!"Request" else b!"SQL Query"))]),
   (b!"SQL", .struct [.scalar (.string b!"SELECT * FROM table_name;"), .scalar (.string b!"foobar"), .scalar (.time send),
     .scalar (.time recv)])] ++
  if i % 2 = 0 then [(b!"log", .struct [.scalar (.string b!"Hello world!"), .scalar (.time log)])] else []

/-- The result of `Trace` is a chain of seven spans, each below the one before, and each with its events. -/
def ShowsRounds (reg : Registry) (t : ID) (g : Nat → ID) (send recv log : Nat → GoTime) (r : TraceResult) : Prop :=
  ∃ tr, r = .found tr ∧ TreeEquiv (reannotate (fun _ => []) tr) (chain (roundID t g) 0 6) ∧
    ∀ i < 7, ∀ sp ∈ tr.spans, sp.id = roundID t g i →
      unmarshalEvents reg sp.annotations = some (roundEvents (send i) (recv i) (log i) i, none)

end Appdash.Spec

namespace Appdash.Py

/-- The ID that appdash gives to a span of basictracer. -/
def OTSpan.id (sp : OTSpan) : SpanID := ⟨sp.trace, sp.span, sp.parent.getD 0⟩

/-- The tags of the span. -/
def OTSpan.tagList (sp : OTSpan) : List (Bytes × Value) := sp.tags.getD []

/-- No tag is mistaken for a part of an event. -/
def OTSpan.PlainTags (sp : OTSpan) : Prop :=
  ∀ kv ∈ sp.tagList, ¬ b!"_schema:" <+: kv.1 ∧ kv.1 ≠ b!"Name" ∧ kv.1 ≠ b!"Span.Start" ∧ kv.1 ≠ b!"Span.End"

/-- The events that Go reads from a span: its name and its times. -/
def otEvents (operation : Bytes) (start stop : GoTime) : List (Bytes × GVal) :=
  [(b!"name", .struct [.scalar (.string operation)]), (b!"Timespan", .struct [.scalar (.time start), .scalar (.time stop)])]

/-- The annotation of a tag that is a string. -/
def tagAnnotation (kv : Bytes × Value) : Option Annotation :=
  match kv.2 with
  | .str v => some ⟨kv.1, some v⟩
  | .other => none

/-- The annotations of a span: those of its name and of its times, and one for every tag that is a string. -/
def OTSpan.shown (sp : OTSpan) : List Annotation :=
  [⟨b!"Name", some sp.operation⟩, ⟨b!"_schema:name", some []⟩, ⟨b!"Span.Start", some sp.start⟩, ⟨b!"Span.End", some sp.stop⟩,
    ⟨b!"_schema:Timespan", some []⟩] ++
  sp.tagList.filterMap tagAnnotation

end Appdash.Py
