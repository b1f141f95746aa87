import Verif.Spec.Store

/-! # Specification for C162: deleting a span from a trace -/

namespace Appdash.Spec

mutual
/-- The tree without the annotations of the span with this ID. -/
def clearSpan (s : ID) : Tree → Tree
  | .node sp ts => .node { sp with annotations := if sp.id.span = s then [] else sp.annotations } (clearSpans s ts)
/-- `clearSpan` for a list of trees. -/
def clearSpans (s : ID) : List Tree → List Tree
  | [] => []
  | t :: ts => clearSpan s t :: clearSpans s ts
end

/-- The tree without the child of the top span that has this ID, and without everything below it. -/
def withoutChild (s : ID) : Tree → Tree
  | .node sp ts => .node sp (ts.filter fun t => decide (t.span.id.span ≠ s))

end Appdash.Spec
