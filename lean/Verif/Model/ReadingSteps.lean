import Verif.Model.Reading

/-!
# Model of reading a trace in the middle of the calls of other goroutines

`Verif.Model.Reading` lets a reader see the store between calls only.  Here it sees every state that a call makes: a step is one
assignment to a field of a node (store.go:133, 178, 183, 209, 216, 232, 237).  Assignments to local variables and to the maps of the store,
which a reader of nodes does not look at, are parts of the next or the last step.  A slice header counts as one value, and the steps are
seen in their order; what Go's memory model allows beyond that is not modelled.
-/

namespace Appdash

namespace MemStore

/-- The states in which the loops of store.go:173-181 and 227-236 leave the store: one after each `p.Sub = append(p.Sub, c)`. -/
def appendEach (ms : MemStore) (p : Addr) : List Addr → List MemStore
  | [] => []
  | c :: cs => ms.appendSub p [c] :: (ms.appendSub p [c]).appendEach p cs

/-- store.go:222-238 `MemoryStore.reattachChildren`, with `dst` and `src` different. -/
def reattachSteps (ms : MemStore) (dst src : Addr) : List MemStore :=
  let cs := (ms.heap src).sub
  let d := (ms.heap dst).id.span
  let l := ms.appendEach dst (cs.filter fun c => decide ((ms.heap c).id.parent = d))
  l ++ [(l.getLastD ms).setSub src (cs.filter fun c => decide ((ms.heap c).id.parent ≠ d))]

/-- store.go:170-183. -/
def moveTempSteps (ms : MemStore) (root oldRoot : Addr) : List MemStore :=
  let cs := (ms.heap oldRoot).sub
  let o := (ms.heap oldRoot).id.span
  let l := ms.appendEach root (cs.filter fun c => decide ((ms.heap c).id.parent ≠ o))
  l ++ [(l.getLastD ms).setSub oldRoot (cs.filter fun c => decide ((ms.heap c).id.parent = o))]

/-- store.go:153-184. -/
def fixRootSteps (ms : MemStore) (id : SpanID) (s root : Addr) : List MemStore × Addr :=
  if s ≠ root ∧ (id.isRoot = true ∨ (ms.heap root).id.parent = id.span) then
    let ms := { ms with trace := ms.trace.set id.trace s }
    let l₁ := ms.reattachSteps s root
    let l₂ := [(l₁.getLastD ms).insert s root]
    let l₃ := (l₂.getLastD ms).moveTempSteps s root
    (ms :: (l₁ ++ l₂ ++ l₃), s)
  else ([], root)

/-- store.go:137-198. -/
def attachSteps (ms : MemStore) (id : SpanID) (s : Addr) : List MemStore :=
  let (ms, root) :=
    match ms.trace.get id.trace with
    | some r => (ms, r)
    | none => ({ ms with trace := ms.trace.set id.trace s }, s)
  let (l₁, root) := ms.fixRootSteps id s root
  let ms₁ := l₁.getLastD ms
  let l₂ := if id.isRoot = false ∧ s ≠ root then [ms₁.insert root s] else []
  let ms₂ := l₂.getLastD ms₁
  let l₃ := if s ≠ root then ms₂.reattachSteps s root else []
  ms :: (l₁ ++ l₂ ++ l₃)

/-- store.go:105-199 `MemoryStore.Collect`: the states it makes, one after the other. -/
def collectSteps (ms : MemStore) (id : SpanID) (as : List Annotation) : List MemStore :=
  let spans := (ms.span.get id.trace).getD []
  match spans.get id.span with
  | some s => [{ ms with heap := heapUpd ms.heap s { ms.heap s with anns := (ms.heap s).anns ++ as } }]
  | none =>
    let s := ms.next
    let ms := { ms with
      heap := heapUpd ms.heap s { id := id, anns := as, sub := [] }
      next := ms.next + 1
      span := ms.span.set id.trace (spans.set id.span s) }
    ms :: ms.attachSteps id s

/-- The states that a call makes; `Delete` (store.go:276-289) changes only the maps. -/
def opSteps (ms : MemStore) : StoreOp → List MemStore
  | .collect id as => ms.collectSteps id as
  | .delete ids => [ms.delete ids]

/-- The states that successive calls make.  (The mutex admits one call at a time, store.go:89.) -/
def moments (ms : MemStore) : List StoreOp → List MemStore
  | [] => []
  | op :: ops => ms.opSteps op ++ ((ms.opSteps op).getLastD ms).moments ops

end MemStore

/-- The walk over a list of nodes, as in `Reads`; the first and the last argument are the states from the beginning of the walk and from its
end on, so that each read sees the first state of a suffix of the states that are left. -/
inductive Walks : List MemStore → List Addr → List Tree → List MemStore → Prop
  | nil (l : List MemStore) : Walks l [] [] l
  | cons {m₁ m₂ : MemStore} {l l₁ l₂ l₃ l₄ : List MemStore} {a : Addr} {as : List Addr} {ts us : List Tree} :
      (m₁ :: l₁) <:+ l → (m₂ :: l₂) <:+ (m₁ :: l₁) → Walks (m₂ :: l₂) (m₂.heap a).sub ts l₃ → Walks l₃ as us l₄ →
      Walks l (a :: as) (.node { id := (m₁.heap a).id, annotations := (m₁.heap a).anns } ts :: us) l₄

/-- A goroutine calls `Trace(t)` when the store is `ms`, and walks the result during the calls `ops`: it sees the tree `tr`.  (`Trace` takes
the mutex, store.go:246-248, so that no call is in progress at that moment.) -/
def MemStore.WalkDuring (ms : MemStore) (t : ID) (ops : List StoreOp) (tr : Tree) : Prop :=
  ∃ a l, ms.tracePtr t = some a ∧ Walks (ms :: ms.moments ops) [a] [tr] l

end Appdash
