import Verif.Spec.OpenTracing
import Verif.Spec.Causal
import Verif.Spec.Event

/-!
# Specification vocabulary for programs that are traced with OpenTracing
-/

namespace Appdash.Spec

/-- The ID under which a span is to be found. -/
def spanIDOf (sp : RawSpan) : SpanID := ⟨sp.trace, sp.span, sp.parent⟩

/-- The spans for which `RecordSpan` was called. -/
def finishedSpans (s : OTState) : List RawSpan := s.threads.map Prod.fst

/-- The calls made to the collector, in the order in which it got them. -/
def collectedBy (s : OTState) : List Entry := s.calls.map fun c => (c.span, c.as)

/-- The spans of trace `tr.span.id.trace` are those of the tree: the root has no parent, every other span has the trace of the
span above it and that span's ID as parent, and the span IDs are different and not 0.  (This is how basictracer makes the
contexts of spans.)  All of them are sampled (basictracer decides this once for a trace). -/
structure TracedAs (sps : List RawSpan) (tr : Tree) : Prop where
  tree : CausalTree tr
  spans : ((sps.filter fun sp => sp.trace = tr.span.id.trace).map spanIDOf).Perm (tr.spans.map Span.id)
  sampled : ∀ sp ∈ sps, sp.trace = tr.span.id.trace → sp.sampled = true

/-- The annotations are a record of the span: its name, its logs, its tags, its baggage and its times, in this order. -/
def ShowsSpan (env : OTEnv) (sp : RawSpan) (as : List Annotation) : Prop := ∃ calls, RecordsAll env sp calls ∧ as = calls.flatten

/-- A tag or baggage item with such a key is taken for a part of an event. -/
def Reserved (key : Bytes) : Prop := key = b!"Name" ∨ key = b!"Msg" ∨ key = b!"Time" ∨ ∃ s, key = b!"_schema:" ++ s

/-- No tag and no baggage item has a reserved key. -/
def PlainTags (sp : RawSpan) : Prop := ∀ e, e ∈ sp.tags ∨ e ∈ sp.baggage → ¬ Reserved e.1

/-- The times of the span and of its logs can be written and read (years 0 to 9999, zones of whole minutes). -/
def TimesHold (env : OTEnv) (sp : RawSpan) : Prop :=
  ScalarTy.time.holds (.time sp.start) = true ∧ ScalarTy.time.holds (.time (env.add sp.start sp.duration)) = true ∧
  ∀ l ∈ sp.logs, ScalarTy.time.holds (.time l.time) = true

end Appdash.Spec
