import Verif.Model.Store

/-!
# Specification vocabulary for stores

Everything here is stated in terms of the history of API calls only.
-/

namespace Appdash.Spec

/-- One `Collect` call: span ID and annotations. -/
abbrev Entry := SpanID × List Annotation

/-- Effect of one call on the list of relevant `Collect` calls of trace `t`. -/
def liveStep (t : ID) (L : List Entry) : StoreOp → List Entry
  | .collect id as => if id.trace = t then L ++ [(id, as)] else L
  | .delete ids => if t ∈ ids then [] else L

/-- The `Collect` calls for trace `t` since `t` was last deleted, oldest first. -/
def live (t : ID) (ops : List StoreOp) : List Entry := ops.foldl (liveStep t) []

/-- Span `s` occurs in one of the calls. -/
def Collected (L : List Entry) (s : ID) : Prop := ∃ e ∈ L, e.1.span = s

instance (L : List Entry) (s : ID) : Decidable (Collected L s) :=
  inferInstanceAs (Decidable (∃ e ∈ L, e.1.span = s))

/-- The parent given in the first call for span `s`. -/
def declaredParent : List Entry → ID → Option ID
  | [], _ => none
  | e :: L, s => if e.1.span = s then some e.1.parent else declaredParent L s

/-- All annotations given for span `s`, in call order. -/
def annotationsOf : List Entry → ID → List Annotation
  | [], _ => []
  | e :: L, s => (if e.1.span = s then e.2 else []) ++ annotationsOf L s

/-- Going through the calls from the newest to the oldest: the first one that is the first call for its span and
has no parent. -/
def lastRootRev : List Entry → Option ID
  | [] => none
  | e :: older =>
    if Collected older e.1.span then lastRootRev older
    else if e.1.parent = 0 then some e.1.span
    else lastRootRev older

/-- The parentless span whose first `Collect` came last, if any span is parentless. -/
def lastRoot (L : List Entry) : Option ID := lastRootRev L.reverse

/-- `c`'s declared parent is `p`, and both are collected. -/
def ParentOf (L : List Entry) (p c : ID) : Prop := declaredParent L c = some p ∧ Collected L p

/-- `c` descends from `a` through one or more collected declared parents. -/
inductive Ancestor (L : List Entry) : ID → ID → Prop
  | base {p c : ID} : ParentOf L p c → Ancestor L p c
  | step {a p c : ID} : Ancestor L a p → ParentOf L p c → Ancestor L a c

/-- No span is its own ancestor. -/
def Acyclic (L : List Entry) : Prop := ∀ s, ¬ Ancestor L s s

/-- Following declared parents from `s` upwards runs into a cycle. -/
def RunsIntoCycle (L : List Entry) (s : ID) : Prop := ∃ a, (a = s ∨ Ancestor L a s) ∧ Ancestor L a a

/-- `t` occurs as a (not necessarily proper) subtree of the tree. -/
inductive Subtree : Tree → Tree → Prop
  | refl (t : Tree) : Subtree t t
  | child {t c u : Tree} : Subtree t c → c ∈ u.sub → Subtree t u

mutual
/-- Equality of trees up to the order of siblings and of the annotations of each span. -/
inductive TreeEquiv : Tree → Tree → Prop
  | node {s s' : Span} {ts us : List Tree} : s.id = s'.id → s.annotations.Perm s'.annotations →
      ForestEquiv ts us → TreeEquiv (.node s ts) (.node s' us)
/-- A one-to-one matching of two lists of trees by equivalent trees, in any order. -/
inductive ForestEquiv : List Tree → List Tree → Prop
  | nil : ForestEquiv [] []
  | cons {t u : Tree} {ts us us' : List Tree} : TreeEquiv t u → ForestEquiv ts (us ++ us') →
      ForestEquiv (t :: ts) (us ++ u :: us')
end

end Appdash.Spec
