import Verif.Model.Trace

/-!
# Model of `store.go`: `MemoryStore`

Traces are nodes in an explicit heap, so that sharing between the trace map, the span map and callers is visible.
-/

namespace Appdash

/-- A pointer `*Trace`. -/
notation "Addr" => Nat

/-- trace.go:14-17 `type Trace struct`: a heap cell. -/
structure Node where
  id : SpanID
  anns : List Annotation
  sub : List Addr
deriving DecidableEq, Repr, Inhabited

/-- store.go:88-95 `type MemoryStore struct` together with the heap its pointers live in.  `next` is the first
unallocated address.  The mutex is modelled in `Verif.Model.Mutex`; the `log` flag only prints and is omitted. -/
structure MemStore where
  heap : Addr → Node
  next : Addr
  trace : AMap ID Addr
  span : AMap ID (AMap ID Addr)

/-- A heap write `*a = n`. -/
def heapUpd (h : Addr → Node) (a : Addr) (n : Node) : Addr → Node :=
  fun x => if x = a then n else h x

/-- store.go:29-36 `type TracesOpts struct`.  A `Timespan` is a pair of times, in nanoseconds. -/
structure TracesOpts where
  start : Int := 0
  stop : Int := 0
  traceIDs : List ID := []
deriving DecidableEq, Repr

namespace MemStore

/-- store.go:79-84 `NewMemoryStore`. -/
def new : MemStore := { heap := fun _ => default, next := 0, trace := [], span := [] }

/-- `ms.span[t][s]` (a missing inner map reads as empty). -/
def spanGet (ms : MemStore) (t s : ID) : Option Addr :=
  match ms.span.get t with
  | none => none
  | some m => m.get s

/-- `p.Sub = append(p.Sub, cs...)`.  Each `Sub` slice is owned by one node, so no aliasing arises. -/
def appendSub (ms : MemStore) (p : Addr) (cs : List Addr) : MemStore :=
  { ms with heap := heapUpd ms.heap p { ms.heap p with sub := (ms.heap p).sub ++ cs } }

/-- `p.Sub = cs`. -/
def setSub (ms : MemStore) (p : Addr) (cs : List Addr) : MemStore :=
  { ms with heap := heapUpd ms.heap p { ms.heap p with sub := cs } }

/-- store.go:203-218 `MemoryStore.insert`. -/
def insert (ms : MemStore) (root t : Addr) : MemStore :=
  match ms.spanGet (ms.heap t).id.trace (ms.heap t).id.parent with
  | some p => ms.appendSub p [t]
  | none => ms.appendSub root [t]

/-- store.go:222-238 `MemoryStore.reattachChildren`; `none` is the `panic("dst == src")`.  The loop that appends
to `dst.Sub` or `sub2` is written as two filters over `src.Sub` (which the loop does not change, as `dst ≠ src`). -/
def reattachChildren (ms : MemStore) (dst src : Addr) : Option MemStore :=
  if dst = src then none
  else
    let cs := (ms.heap src).sub
    let d := (ms.heap dst).id.span
    let ms := ms.appendSub dst (cs.filter fun c => decide ((ms.heap c).id.parent = d))
    some (ms.setSub src (cs.filter fun c => decide ((ms.heap c).id.parent ≠ d)))

/-- store.go:170-183: move the old temp root's temporary children to the new root.  The loop is written as two
filters; it runs only with `root ≠ oldRoot`. -/
def moveTempChildren (ms : MemStore) (root oldRoot : Addr) : MemStore :=
  let cs := (ms.heap oldRoot).sub
  let o := (ms.heap oldRoot).id.span
  let ms := ms.appendSub root (cs.filter fun c => decide ((ms.heap c).id.parent ≠ o))
  ms.setSub oldRoot (cs.filter fun c => decide ((ms.heap c).id.parent = o))

/-- store.go:153-184: install a new (real or temporary) root if the new span is a real root or the parent of the
current root.  Returns the store and the (possibly new) root. -/
def fixRoot (ms : MemStore) (id : SpanID) (s root : Addr) : Option (MemStore × Addr) :=
  if s ≠ root ∧ (id.isRoot = true ∨ (ms.heap root).id.parent = id.span) then
    let oldRoot := root
    let root := s
    let ms := { ms with trace := ms.trace.set id.trace root }
    match ms.reattachChildren root oldRoot with
    | none => none
    | some ms =>
      let ms := ms.insert root oldRoot
      some (ms.moveTempChildren root oldRoot, root)
  else some (ms, root)

/-- store.go:137-198: hang the freshly created span `s` into its trace tree. -/
def attach (ms : MemStore) (id : SpanID) (s : Addr) : Option MemStore :=
  -- store.go:137-151
  let (ms, root) :=
    match ms.trace.get id.trace with
    | some r => (ms, r)
    | none => ({ ms with trace := ms.trace.set id.trace s }, s)
  -- store.go:153-184
  match ms.fixRoot id s root with
  | none => none
  | some (ms, root) =>
    -- store.go:186-190
    let ms := if id.isRoot = false ∧ s ≠ root then ms.insert root s else ms
    -- store.go:192-196
    if s ≠ root then ms.reattachChildren s root else some ms

/-- store.go:105-199 `MemoryStore.Collect` / `collectNoLock`; `none` means the call panics.  (It always returns a nil
error.)  The annotation slice is copied here; see `Verif.Model.Slices` for the sharing of its backing array. -/
def collect (ms : MemStore) (id : SpanID) (as : List Annotation) : Option MemStore :=
  -- store.go:117-120
  let spans := (ms.span.get id.trace).getD []
  -- store.go:122-135
  match spans.get id.span with
  | some s =>
    some { ms with heap := heapUpd ms.heap s { ms.heap s with anns := (ms.heap s).anns ++ as } }
  | none =>
    let s := ms.next
    let ms := { ms with
      heap := heapUpd ms.heap s { id := id, anns := as, sub := [] }
      next := ms.next + 1
      span := ms.span.set id.trace (spans.set id.span s) }
    ms.attach id s

/-- store.go:276-289 `MemoryStore.Delete` / `deleteNoLock` (always returns nil). -/
def delete (ms : MemStore) : List ID → MemStore
  | [] => ms
  | t :: ts => delete { ms with trace := ms.trace.del t, span := ms.span.del t } ts

/-- store.go:243-256 `MemoryStore.Trace` / `traceNoLock`: the returned pointer, or `none` for `ErrTraceNotFound`. -/
def tracePtr (ms : MemStore) (t : ID) : Option Addr := ms.trace.get t

/-- store.go:259-272 `MemoryStore.Traces`: the options are not used.  The order is that of the representation of the
map; a Go map iterates in an unspecified order, so theorems are stated for every permutation of this list. -/
def tracesPtr (ms : MemStore) (_opts : TracesOpts) : List Addr := ms.trace.map Prod.snd

end MemStore

/-- Follow pointers from `a` to a tree value.  `none` if the walk is still not finished at depth `fuel`. -/
def unfoldNode (h : Addr → Node) : Nat → Addr → Option Tree
  | 0, _ => none
  | fuel + 1, a =>
    match (h a).sub.mapM (unfoldNode h fuel) with
    | none => none
    | some ts => some (.node { id := (h a).id, annotations := (h a).anns } ts)

/-- What a caller of `Trace(t)` observes by walking the returned pointer. -/
inductive TraceResult where
  | notFound
  | found (t : Tree)
  /-- The pointer structure does not unfold to a tree of depth at most the number of allocated nodes. -/
  | infinite
deriving DecidableEq, Repr

namespace MemStore

/-- The observable result of `Trace(t)`, store.go:243-256: not found, or the tree reached from the returned pointer.
The bound `next` on the depth is no restriction: an acyclic structure has no longer path. -/
def view (ms : MemStore) (t : ID) : TraceResult :=
  match ms.tracePtr t with
  | none => .notFound
  | some a =>
    match unfoldNode ms.heap ms.next a with
    | none => .infinite
    | some tr => .found tr

/-- The trees a caller reads from the list returned by `Traces(opts)`; `none` if one of them is not a finite tree. -/
def tracesView (ms : MemStore) (ptrs : List Addr) : Option (List Tree) := ptrs.mapM (unfoldNode ms.heap ms.next)

end MemStore

/-- The mutating calls on a `MemoryStore`. -/
inductive StoreOp where
  | collect (id : SpanID) (as : List Annotation)
  | delete (ids : List ID)
deriving DecidableEq, Repr

namespace MemStore

/-- Perform one call; `none` is a panic. -/
def step (ms : MemStore) : StoreOp → Option MemStore
  | .collect id as => ms.collect id as
  | .delete ids => some (ms.delete ids)

/-- Perform a sequence of calls; `none` if one of them panics. -/
def run (ms : MemStore) : List StoreOp → Option MemStore
  | [] => some ms
  | op :: ops =>
    match ms.step op with
    | none => none
    | some ms => ms.run ops

end MemStore

end Appdash
