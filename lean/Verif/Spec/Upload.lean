import Verif.Model.Upload
import Verif.Model.Json

/-!
# Specification vocabulary for uploads
-/

namespace Appdash.Spec

/-- The shape of a trace in which every span is in trace `t`, no span occurs twice, and every span below another one
is there because that is its parent, or, if its parent is not in the tree, hangs below the root. -/
structure WellPlaced (t : ID) (tr : Tree) : Prop where
  trace : ∀ sp ∈ tr.spans, sp.id.trace = t
  nodup : (tr.spans.map fun s => s.id.span).Nodup
  place : ∀ p c, (p, c) ∈ tr.edges → c.id.parent = p.id.span ∨
    (p = tr.span ∧ ∀ sp ∈ tr.spans, sp.id.span ≠ c.id.parent)

/-- The root is what it claims to be: no other span is parentless, and no other span is the root's declared parent. -/
def TrueRoot (tr : Tree) : Prop :=
  ∀ sp ∈ tr.spans, sp ≠ tr.span → sp.id.parent ≠ 0 ∧ sp.id.span ≠ tr.span.id.parent

mutual
/-- The spans of a decoded trace, parent before children, nil pointers skipped. -/
def PTree.spans : PTree → List Span
  | .nil => []
  | .node s ts => s :: PTree.spansList ts
/-- `spans` of a list. -/
def PTree.spansList : List PTree → List Span
  | [] => []
  | t :: ts => PTree.spans t ++ PTree.spansList ts
end

/-- All spans of the decoded trace belong to the trace of its top span. -/
def PTree.Uniform : PTree → Prop
  | .nil => True
  | .node s ts => ∀ sp ∈ PTree.spansList ts, sp.id.trace = s.id.trace

mutual
/-- No `null` in the decoded trace. -/
def PTree.NilFree : PTree → Prop
  | .nil => False
  | .node _ ts => PTree.NilFreeList ts
/-- `NilFree` of every element. -/
def PTree.NilFreeList : List PTree → Prop
  | [] => True
  | t :: ts => PTree.NilFree t ∧ PTree.NilFreeList ts
end

mutual
/-- The spans of a decoded trace that come before the first `null`, in order (parent before children), and whether
there is no `null` at all. -/
def PTree.beforeNil : PTree → List Span × Bool
  | .nil => ([], false)
  | .node s ts => (s :: (PTree.beforeNilList ts).1, (PTree.beforeNilList ts).2)
/-- `beforeNil` of a list. -/
def PTree.beforeNilList : List PTree → List Span × Bool
  | [] => ([], true)
  | t :: ts =>
    match PTree.beforeNil t with
    | (l, false) => (l, false)
    | (l, true) => (l ++ (PTree.beforeNilList ts).1, (PTree.beforeNilList ts).2)
end

/-- The trace ID of the top span. -/
def PTree.traceID? : PTree → Option ID
  | .nil => none
  | .node s _ => some s.id.trace

/-- Every annotation key of the trace is valid UTF-8 (a JSON string can carry it). -/
def UTF8Keys (tr : Tree) : Prop := ∀ sp ∈ tr.spans, ∀ a ∈ sp.annotations, cleanUTF8 a.key = a.key

end Appdash.Spec
