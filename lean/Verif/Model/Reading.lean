import Verif.Model.Store

/-!
# Model of reading a trace while spans are collected

`MemoryStore.Trace` and `MemoryStore.Traces` return pointers to the nodes that the store goes on to use (store.go:246-272), and whoever
walks them (the export, traceapp/app.go:185; the timeline, traceapp/vis.go:31-115; the profile, traceapp/prof.go:46-111; `Trace.String` and
`TreeString`, trace.go:24-62) does not hold the store's mutex.  So other goroutines perform calls on the store between the steps of the
walk.

Each read of a field is one step that sees all calls which took place before it.  (`Verif.Model.ReadingSteps` adds the states in the middle of
a call.  What Go's memory model allows beyond that for such races is not modelled.)  A walk over the slice `Sub` goes over the elements that the slice has when the walk begins: the store only appends to a slice
(store.go:178, 209, 216, 232) or replaces it by a new one (store.go:183, 237).
-/

namespace Appdash

/-- The walk over a list of nodes gives a list of trees, and while it goes on the calls `ops` are performed, which take the store from `ms`
to the last argument: the annotations of a node are read, then its slice `Sub`, then the nodes of this slice are walked, then the other
nodes of the list.  (trace.go:14-17 and span.go:138-143 for the order of the fields; an ID never changes.) -/
inductive Reads : MemStore → List StoreOp → List Addr → List Tree → MemStore → Prop
  | nil (ms : MemStore) : Reads ms [] [] [] ms
  | cons {ms ms₁ ms₂ ms₃ ms₄ : MemStore} {ops₁ ops₂ ops₃ ops₄ : List StoreOp} {a : Addr} {as : List Addr} {ts us : List Tree} :
      ms.run ops₁ = some ms₁ → ms₁.run ops₂ = some ms₂ → Reads ms₂ ops₃ (ms₂.heap a).sub ts ms₃ → Reads ms₃ ops₄ as us ms₄ →
      Reads ms (ops₁ ++ ops₂ ++ ops₃ ++ ops₄) (a :: as)
        (.node { id := (ms₁.heap a).id, annotations := (ms₁.heap a).anns } ts :: us) ms₄

/-- A goroutine calls `Trace(t)` when the store is `ms`, and walks the result while `ops` are performed: it sees the tree `tr`. -/
def MemStore.ReadWhile (ms : MemStore) (t : ID) (ops : List StoreOp) (tr : Tree) (ms' : MemStore) : Prop :=
  ∃ a, ms.tracePtr t = some a ∧ Reads ms ops [a] [tr] ms'

/-! ## The export

`encoding/json` encodes a slice by reading its length once and then, for each index below it, the element of the slice as it is at that
moment: the slice header lies in the node and `reflect.Value.Index` reads it again each time.  If the slice has become shorter than the
index, `Index` panics, and `encoding/json` passes this panic on. -/

mutual

/-- The export encodes the node `a` while `ops` are performed; the result is the tree that it writes, or none if it panics.
(traceapp/app.go:183 and 191, `json.MarshalIndent` and `Encode`; trace.go:14-17.)  The slice of annotations only grows
(store.go:133), so its elements are read as they are when its length is read. -/
inductive Encodes : MemStore → List StoreOp → Addr → Option Tree → MemStore → Prop
  | node {ms ms₁ ms₂ ms₃ : MemStore} {ops₁ ops₂ ops₃ : List StoreOp} {a : Addr} {r : Option (List Tree)} :
      ms.run ops₁ = some ms₁ → ms₁.run ops₂ = some ms₂ → EncodesSub ms₂ ops₃ a 0 (ms₂.heap a).sub.length r ms₃ →
      Encodes ms (ops₁ ++ ops₂ ++ ops₃) a (r.map (Tree.node { id := (ms₁.heap a).id, annotations := (ms₁.heap a).anns })) ms₃

/-- The export encodes the elements of the slice `Sub` of the node `a`, from index `i` on; `n` is the length it has read. -/
inductive EncodesSub : MemStore → List StoreOp → Addr → Nat → Nat → Option (List Tree) → MemStore → Prop
  | done {ms : MemStore} {a : Addr} {n : Nat} : EncodesSub ms [] a n n (some []) ms
  | panic {ms ms₁ : MemStore} {ops : List StoreOp} {a : Addr} {i n : Nat} : i < n → ms.run ops = some ms₁ →
      (ms₁.heap a).sub[i]? = none → EncodesSub ms ops a i n none ms₁
  | elem {ms ms₁ ms₂ ms₃ : MemStore} {ops₁ ops₂ ops₃ : List StoreOp} {a c : Addr} {i n : Nat} {t : Tree} {r : Option (List Tree)} : i < n →
      ms.run ops₁ = some ms₁ → (ms₁.heap a).sub[i]? = some c → Encodes ms₁ ops₂ c (some t) ms₂ → EncodesSub ms₂ ops₃ a (i + 1) n r ms₃ →
      EncodesSub ms (ops₁ ++ ops₂ ++ ops₃) a i n (r.map (t :: ·)) ms₃
  | elemPanic {ms ms₁ ms₂ : MemStore} {ops₁ ops₂ : List StoreOp} {a c : Addr} {i n : Nat} : i < n →
      ms.run ops₁ = some ms₁ → (ms₁.heap a).sub[i]? = some c → Encodes ms₁ ops₂ c none ms₂ →
      EncodesSub ms (ops₁ ++ ops₂) a i n none ms₂

end

/-- A goroutine calls `Trace(t)` when the store is `ms`, and exports the result while `ops` are performed. -/
def MemStore.ExportWhile (ms : MemStore) (t : ID) (ops : List StoreOp) (r : Option Tree) (ms' : MemStore) : Prop :=
  ∃ a, ms.tracePtr t = some a ∧ Encodes ms ops a r ms'

end Appdash
