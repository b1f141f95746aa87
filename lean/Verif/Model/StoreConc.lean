import Verif.Model.Store
import Verif.Model.Mutex

/-!
# Concurrent use of a `MemoryStore`

The methods of store.go:105-289 as statement-by-statement bodies executed under the store's mutex.
-/

namespace Appdash

/-- A call on the store. -/
inductive StoreCall where
  | collect (id : SpanID) (as : List Annotation)
  | delete (ids : List ID)
  | trace (t : ID)
  | traces (opts : TracesOpts)
deriving DecidableEq, Repr

/-- What a call returns: a nil error, a pointer (`none` for `ErrTraceNotFound`), or a list of pointers. -/
inductive StoreReply where
  | done
  | ptr (p : Option Addr)
  | ptrs (ps : List Addr)
deriving DecidableEq, Repr

/-- Program points inside the critical sections. -/
inductive StorePC where
  /-- store.go:117-120 -/
  | collectInit (id : SpanID) (as : List Annotation)
  /-- store.go:122-135 -/
  | collectSpan (id : SpanID) (as : List Annotation)
  /-- store.go:137-151 -/
  | collectRoot (id : SpanID) (s : Addr)
  /-- store.go:153-164 -/
  | collectFix (id : SpanID) (s root : Addr)
  /-- store.go:165 -/
  | fixReattach (id : SpanID) (s oldRoot : Addr)
  /-- store.go:166 -/
  | fixInsert (id : SpanID) (s oldRoot : Addr)
  /-- store.go:168-183 -/
  | fixMove (id : SpanID) (s oldRoot : Addr)
  /-- store.go:186-190 -/
  | collectInsert (id : SpanID) (s root : Addr)
  /-- store.go:192-198 -/
  | collectReattach (s root : Addr)
  /-- store.go:284, the loop over the IDs -/
  | deleteLoop (ids : List ID)
  /-- store.go:286 -/
  | deleteSpans (t : ID) (ids : List ID)
  /-- store.go:251-255 -/
  | traceGet (t : ID)
  /-- store.go:263-271; `todo` are the keys still to visit -/
  | tracesInit (opts : TracesOpts)
  | tracesLoop (todo : List ID) (acc : List Addr)

/-- One statement under the lock.  A step that would panic does not exist (the goroutine is stuck). -/
inductive StoreStep : StorePC → MemStore → MemStore → StorePC ⊕ StoreReply → Prop
  | initMissing (ms : MemStore) (id as) : ms.span.get id.trace = none →
      StoreStep (.collectInit id as) ms { ms with span := ms.span.set id.trace [] } (.inl (.collectSpan id as))
  | initPresent (ms : MemStore) (id as m) : ms.span.get id.trace = some m →
      StoreStep (.collectInit id as) ms ms (.inl (.collectSpan id as))
  | spanPresent (ms : MemStore) (id as m s) : ms.span.get id.trace = some m → m.get id.span = some s →
      StoreStep (.collectSpan id as) ms
        { ms with heap := heapUpd ms.heap s { ms.heap s with anns := (ms.heap s).anns ++ as } } (.inr .done)
  | spanNew (ms : MemStore) (id as m) : ms.span.get id.trace = some m → m.get id.span = none →
      StoreStep (.collectSpan id as) ms
        { ms with
          heap := heapUpd ms.heap ms.next { id := id, anns := as, sub := [] }
          next := ms.next + 1
          span := ms.span.set id.trace (m.set id.span ms.next) } (.inl (.collectRoot id ms.next))
  | rootPresent (ms : MemStore) (id s r) : ms.trace.get id.trace = some r →
      StoreStep (.collectRoot id s) ms ms (.inl (.collectFix id s r))
  | rootNew (ms : MemStore) (id s) : ms.trace.get id.trace = none →
      StoreStep (.collectRoot id s) ms { ms with trace := ms.trace.set id.trace s } (.inl (.collectFix id s s))
  | fixYes (ms : MemStore) (id s root) :
      s ≠ root ∧ (SpanID.isRoot id = true ∨ (ms.heap root).id.parent = id.span) →
      StoreStep (.collectFix id s root) ms { ms with trace := ms.trace.set id.trace s } (.inl (.fixReattach id s root))
  | fixNo (ms : MemStore) (id s root) :
      ¬ (s ≠ root ∧ (SpanID.isRoot id = true ∨ (ms.heap root).id.parent = id.span)) →
      StoreStep (.collectFix id s root) ms ms (.inl (.collectInsert id s root))
  | fixReattach (ms ms' : MemStore) (id s old) : ms.reattachChildren s old = some ms' →
      StoreStep (.fixReattach id s old) ms ms' (.inl (.fixInsert id s old))
  | fixInsert (ms : MemStore) (id s old) :
      StoreStep (.fixInsert id s old) ms (ms.insert s old) (.inl (.fixMove id s old))
  | fixMove (ms : MemStore) (id s old) :
      StoreStep (.fixMove id s old) ms (ms.moveTempChildren s old) (.inl (.collectInsert id s s))
  | insertYes (ms : MemStore) (id s root) : SpanID.isRoot id = false ∧ s ≠ root →
      StoreStep (.collectInsert id s root) ms (ms.insert root s) (.inl (.collectReattach s root))
  | insertNo (ms : MemStore) (id s root) : ¬ (SpanID.isRoot id = false ∧ s ≠ root) →
      StoreStep (.collectInsert id s root) ms ms (.inl (.collectReattach s root))
  | reattachYes (ms ms' : MemStore) (s root) : s ≠ root → ms.reattachChildren s root = some ms' →
      StoreStep (.collectReattach s root) ms ms' (.inr .done)
  | reattachNo (ms : MemStore) (s root) : s = root → StoreStep (.collectReattach s root) ms ms (.inr .done)
  | deleteDone (ms : MemStore) : StoreStep (.deleteLoop []) ms ms (.inr .done)
  | deleteTrace (ms : MemStore) (t ids) :
      StoreStep (.deleteLoop (t :: ids)) ms { ms with trace := ms.trace.del t } (.inl (.deleteSpans t ids))
  | deleteSpans (ms : MemStore) (t ids) :
      StoreStep (.deleteSpans t ids) ms { ms with span := ms.span.del t } (.inl (.deleteLoop ids))
  | traceGet (ms : MemStore) (t) : StoreStep (.traceGet t) ms ms (.inr (.ptr (ms.trace.get t)))
  | tracesInit (ms : MemStore) (opts) (todo : List ID) : todo.Perm (AMap.keys ms.trace) →
      StoreStep (.tracesInit opts) ms ms (.inl (.tracesLoop todo []))
  | tracesDone (ms : MemStore) (acc) : StoreStep (.tracesLoop [] acc) ms ms (.inr (.ptrs acc))
  | tracesNext (ms : MemStore) (t todo acc p) : ms.trace.get t = some p →
      StoreStep (.tracesLoop (t :: todo) acc) ms ms (.inl (.tracesLoop todo (acc ++ [p])))

/-- Where the body of each call starts. -/
def StoreCall.start : StoreCall → StorePC
  | .collect id as => .collectInit id as
  | .delete ids => .deleteLoop ids
  | .trace t => .traceGet t
  | .traces opts => .tracesInit opts

/-- The store as mutex-protected operations. -/
def storeMachine : Mutex.Machine MemStore StoreCall StoreReply :=
  { L := StorePC, start := StoreCall.start, step := StoreStep }

end Appdash
