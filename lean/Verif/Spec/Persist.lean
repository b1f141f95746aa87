import Verif.Model.Persist
import Mathlib.Data.List.Forall2

/-! # Specification vocabulary for persistence -/

namespace Appdash.Spec

/-- The same key and the same value, not distinguishing a nil value from an empty one. -/
def SameAnnotation (a b : Annotation) : Prop := a.key = b.key ∧ a.value.getD [] = b.value.getD []

mutual
/-- The same spans in the same places with the same annotations in the same order, not distinguishing nil values from
empty ones. -/
inductive SameTree : Tree → Tree → Prop
  | node {s s' : Span} {ts us : List Tree} : s.id = s'.id → List.Forall₂ SameAnnotation s.annotations s'.annotations →
      SameTrees ts us → SameTree (.node s ts) (.node s' us)
/-- The same for lists of trees. -/
inductive SameTrees : List Tree → List Tree → Prop
  | nil : SameTrees [] []
  | cons {t u : Tree} {ts us : List Tree} : SameTree t u → SameTrees ts us → SameTrees (t :: ts) (u :: us)
end

/-- The same answer from `Trace`, up to `SameTree`. -/
inductive SameResult : TraceResult → TraceResult → Prop
  | notFound : SameResult .notFound .notFound
  | found {t u : Tree} : SameTree t u → SameResult (.found t) (.found u)

/-- The store remembers this history: `t` is deleted by one of the calls. -/
def Deletes (t : ID) (ops : List StoreOp) : Prop := ∃ ids, StoreOp.delete ids ∈ ops ∧ t ∈ ids

/-- `t` is collected by one of the calls. -/
def Collects (t : ID) (ops : List StoreOp) : Prop := ∃ id as, StoreOp.collect id as ∈ ops ∧ id.trace = t

/-! ## Which snapshot the file holds -/

/-- Reading the events from the oldest: the store the last `Write` was called on, and the store whose snapshot the file
holds (`none` as long as the file is the one from the beginning). -/
def snapshotStep (s : Option MemStore × Option MemStore) : PersistEvent → Option MemStore × Option MemStore
  | .write ms => (some ms, s.2)
  | .rename => (s.1, s.1)
  | _ => s

/-- The store on which `Write` was called last before the last successful rename. -/
def lastSnapshot (evs : List PersistEvent) : Option MemStore := (evs.foldl snapshotStep (none, none)).2

/-- Reading the events from the oldest: the calls on the store since the process started. -/
def callsStep (cs : List StoreOp) : PersistEvent → List StoreOp
  | .start => []
  | .call op => cs ++ [op]
  | _ => cs

/-- The calls on the store since the process started. -/
def callsSinceStart (evs : List PersistEvent) : List StoreOp := evs.foldl callsStep []

end Appdash.Spec
