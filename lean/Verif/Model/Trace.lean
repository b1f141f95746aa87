import Verif.Model.Span

/-!
# Model of `trace.go`: traces as trees
-/

namespace Appdash

/-- trace.go:14-17 `type Trace struct { Span; Sub []*Trace }`, as the (finite) value a caller sees when walking the
pointers.  The pointer structure itself is modelled in `Verif.Model.Store`. -/
inductive Tree where
  | node (span : Span) (sub : List Tree)
deriving Repr, Inhabited

namespace Tree

/-- The embedded span, `t.Span`. -/
def span : Tree → Span
  | node s _ => s

/-- `t.Sub`. -/
def sub : Tree → List Tree
  | node _ ts => ts

mutual
/-- The spans of the tree in depth-first (parent before children, children in order) order. -/
def spans : Tree → List Span
  | node s ts => s :: spansList ts
/-- `spans` of a list of trees. -/
def spansList : List Tree → List Span
  | [] => []
  | t :: ts => t.spans ++ spansList ts
end

mutual
/-- All pairs (parent span, child span) of the tree: the child is the root of an element of the parent's `Sub`. -/
def edges : Tree → List (Span × Span)
  | node s ts => (ts.map fun c => (s, c.span)) ++ edgesList ts
/-- `edges` of a list of trees. -/
def edgesList : List Tree → List (Span × Span)
  | [] => []
  | t :: ts => t.edges ++ edgesList ts
end

mutual
/-- trace.go:30-40 `Trace.FindSpan`. -/
def findSpan (i : ID) : Tree → Option Tree
  | node s ts => if s.id.span = i then some (node s ts) else findSpanList i ts
/-- trace.go:34-38, the loop over `t.Sub`. -/
def findSpanList (i : ID) : List Tree → Option Tree
  | [] => none
  | t :: ts =>
    match t.findSpan i with
    | some r => some r
    | none => findSpanList i ts
end

end Tree

mutual
/-- Decidable equality of trees (the derive handler does not cover nested inductives here). -/
def Tree.decEq : (a b : Tree) → Decidable (a = b)
  | .node s ts, .node s' ts' =>
    match (inferInstance : Decidable (s = s')), Tree.decEqList ts ts' with
    | isTrue h, isTrue h' => isTrue (by rw [h, h'])
    | isFalse h, _ => isFalse (fun e => h (by injection e))
    | _, isFalse h => isFalse (fun e => h (by injection e))
/-- Decidable equality of lists of trees. -/
def Tree.decEqList : (a b : List Tree) → Decidable (a = b)
  | [], [] => isTrue rfl
  | [], _ :: _ => isFalse (fun e => nomatch e)
  | _ :: _, [] => isFalse (fun e => nomatch e)
  | t :: ts, t' :: ts' =>
    match Tree.decEq t t', Tree.decEqList ts ts' with
    | isTrue h, isTrue h' => isTrue (by rw [h, h'])
    | isFalse h, _ => isFalse (fun e => h (by injection e))
    | _, isFalse h => isFalse (fun e => h (by injection e))
end

instance : DecidableEq Tree := Tree.decEq

end Appdash
