import Verif.Model.IDGen
import Verif.Spec.Store

/-!
# Specification vocabulary for causal trees

A program that traces its work makes one root span ID and derives the ID of every further span from the span that
caused it.  The tree of the spans, each below the span that caused it, is the *causal tree* of the work.
-/

namespace Appdash.Spec

/-- `tr` is the causal tree of some work: the root's ID comes from `NewRootSpanID`, the ID of every other span comes
from `NewSpanID` applied to the ID of the span above it, and the random span IDs are different from each other and from
0. -/
structure CausalTree (tr : Tree) : Prop where
  root : ∃ g1 g2, tr.span.id = newRootSpanID g1 g2
  derived : ∀ e ∈ tr.edges, ∃ g, e.2.id = newSpanID e.1.id g
  distinct : (tr.spans.map fun sp => sp.id.span).Nodup
  nonzero : ∀ sp ∈ tr.spans, sp.id.span ≠ 0

/-- The `Collect` calls `L` report the spans of `tr`: every call is for a span of `tr`, there is a call for every span
of `tr`, and all calls for a span together give its annotations, in any order. -/
structure Reports (L : List Entry) (tr : Tree) : Prop where
  known : ∀ e ∈ L, ∃ sp ∈ tr.spans, e.1 = sp.id
  complete : ∀ sp ∈ tr.spans, ∃ e ∈ L, e.1 = sp.id
  annotations : ∀ sp ∈ tr.spans, (L.flatMap fun e => if e.1 = sp.id then e.2 else []).Perm sp.annotations

/-- The calls that are for trace `t`. -/
def forTrace (t : ID) (L : List Entry) : List Entry := L.filter fun e => e.1.trace = t

mutual
/-- The tree with the annotations of each span replaced by `f` of its ID. -/
def reannotate (f : SpanID → List Annotation) : Tree → Tree
  | .node sp ts => .node { sp with annotations := f sp.id } (reannotateList f ts)
/-- `reannotate` for a list of trees. -/
def reannotateList (f : SpanID → List Annotation) : List Tree → List Tree
  | [] => []
  | t :: ts => reannotate f t :: reannotateList f ts
end

end Appdash.Spec
