import Verif.Model.Trace

/-!
# What `TreeString` shows
-/

namespace Appdash.Spec

/-- An annotation as it is shown: a nil value is shown like an empty one. -/
def shownAnnotation (a : Annotation) : Annotation := ⟨a.key, some a.valueString⟩

mutual

/-- What is shown of a trace below the root: the span's ID and its parent's, and the annotations; not the trace ID. -/
def shownBelow : Tree → Tree
  | .node s ts => .node ⟨⟨0, s.id.span, s.id.parent⟩, s.annotations.map shownAnnotation⟩ (shownBelowList ts)

/-- `shownBelow` for a list of traces. -/
def shownBelowList : List Tree → List Tree
  | [] => []
  | t :: ts => shownBelow t :: shownBelowList ts

end

/-- What is shown of a trace: of the root the trace ID and the annotations, but not the span's ID or its parent's. -/
def shown : Tree → Tree
  | .node s ts => .node ⟨⟨s.id.trace, 0, 0⟩, s.annotations.map shownAnnotation⟩ (shownBelowList ts)

mutual

/-- The trace with nil values of annotations replaced by empty ones. -/
def withShownValues : Tree → Tree
  | .node s ts => .node ⟨s.id, s.annotations.map shownAnnotation⟩ (withShownValuesList ts)

/-- `withShownValues` for a list of traces. -/
def withShownValuesList : List Tree → List Tree
  | [] => []
  | t :: ts => withShownValues t :: withShownValuesList ts

end

/-- No key or value contains a line break, and no key an equals sign. -/
def OneLineAnnotations (t : Tree) : Prop :=
  ∀ sp ∈ t.spans, ∀ a ∈ sp.annotations, 10 ∉ a.key ∧ 61 ∉ a.key ∧ 10 ∉ a.valueString

end Appdash.Spec
