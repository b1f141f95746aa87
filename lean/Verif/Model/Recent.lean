import Verif.Model.Store

/-!
# Model of `RecentStore` (store.go:388-457) over a `MemoryStore`

A `Collect` call consists of a part that holds the mutex and, after that, the call of the underlying `Collect`.  The
eviction spawns a goroutine that calls the underlying `Delete`.  Any number of `Collect` calls run at the same time, so a
state holds the underlying calls that are still to be made, and these are made in any order.  The part under the mutex is
atomic: what happens concurrently does not touch its variables.  The underlying calls are atomic because a `MemoryStore`
protects them with its own mutex.

Times are nanoseconds since the epoch, as unbounded integers; the overflow of `int64` after the year 2262 is not modelled.
Logging is not modelled.  The underlying `Delete` of a `MemoryStore` does not fail.
-/

namespace Appdash

/-- The values of the four clock readings of one `Collect`; those of an eviction are arbitrary if there is none. -/
structure Readings where
  /-- store.go:418 -/
  seen : Int
  /-- store.go:420 `time.Since` -/
  since : Int
  /-- store.go:421 -/
  cutoff : Int
  /-- store.go:431 `evictStart` -/
  evict : Int
deriving DecidableEq, Repr

/-- store.go:390-408 `type RecentStore struct`, and the underlying calls still to be made. -/
structure RecentStore where
  /-- `DeleteStore` -/
  under : MemStore
  /-- `created`; the nil map behaves like the empty one. -/
  created : AMap ID Int
  /-- `lastEvicted`; `none` is the zero time. -/
  lastEvicted : Option Int
  /-- Underlying `Collect` calls to be made (store.go:425). -/
  pending : List (SpanID × List Annotation)
  /-- Underlying `Delete` calls to be made by spawned goroutines (store.go:450). -/
  jobs : List (List ID)

namespace RecentStore

/-- `&RecentStore{MinEvictAge: age, DeleteStore: NewMemoryStore()}`. -/
def new : RecentStore := { under := MemStore.new, created := [], lastEvicted := none, pending := [], jobs := [] }

/-- store.go:417-419: remember when the trace was first seen. -/
def note (created : AMap ID Int) (t : ID) (now : Int) : AMap ID Int :=
  match created.get t with
  | some _ => created
  | none => created.set t now

/-- store.go:420 `time.Since(rs.lastEvicted)`; for the zero time it is the greatest duration. -/
def sinceEvicted (lastEvicted : Option Int) (now : Int) : Int :=
  match lastEvicted with
  | none => 2 ^ 63 - 1
  | some t => now - t

/-- store.go:435-437: the traces created before `tnano`, in some order. -/
def expired (created : AMap ID Int) (tnano : Int) : List ID :=
  (created.filter fun p => decide (p.2 < tnano)).map Prod.fst

/-- store.go:438: remove the traces from `created`. -/
def forget (created : AMap ID Int) (ids : List ID) : AMap ID Int := ids.foldl AMap.del created

end RecentStore

/-- What can be observed of one step: the part of a `Collect` call that holds the mutex, with the traces it decides to
evict; an underlying `Collect` call; an underlying `Delete` call. -/
inductive RecentObs where
  | call (c : Readings) (id : SpanID) (as : List Annotation) (evicted : List ID)
  | stored (id : SpanID) (as : List Annotation)
  | deleted (ids : List ID)
deriving DecidableEq, Repr

open RecentStore in
/-- One step of a `RecentStore` with `MinEvictAge` `age`. -/
inductive RecentStep (age : Int) : RecentStore → RecentObs → RecentStore → Prop where
  /-- store.go:413-423 without eviction. -/
  | keep {rs : RecentStore} {c : Readings} {id : SpanID} {as : List Annotation} :
      ¬ sinceEvicted rs.lastEvicted c.since > age →
      RecentStep age rs (.call c id as []) { rs with
        created := note rs.created id.trace c.seen
        pending := rs.pending ++ [(id, as)] }
  /-- store.go:413-423 with eviction, store.go:430-450.  The order of `evicted` is the iteration order of a map.  No
  goroutine is spawned if there is nothing to evict. -/
  | evict {rs : RecentStore} {c : Readings} {id : SpanID} {as : List Annotation} {evicted : List ID} :
      sinceEvicted rs.lastEvicted c.since > age →
      evicted.Perm (expired (note rs.created id.trace c.seen) (c.cutoff - age)) →
      RecentStep age rs (.call c id as evicted) { rs with
        created := forget (note rs.created id.trace c.seen) evicted
        lastEvicted := some c.evict
        pending := rs.pending ++ [(id, as)]
        jobs := if evicted.length = 0 then rs.jobs else rs.jobs ++ [evicted] }
  /-- store.go:425 -/
  | store {rs : RecentStore} {a b : List (SpanID × List Annotation)} {id : SpanID} {as : List Annotation}
      {ms : MemStore} :
      rs.pending = a ++ (id, as) :: b → rs.under.collect id as = some ms →
      RecentStep age rs (.stored id as) { rs with under := ms, pending := a ++ b }
  /-- store.go:450-452 -/
  | delete {rs : RecentStore} {a b : List (List ID)} {ids : List ID} :
      rs.jobs = a ++ ids :: b →
      RecentStep age rs (.deleted ids) { rs with under := rs.under.delete ids, jobs := a ++ b }

/-- An execution and what can be observed of it. -/
inductive RecentRuns (age : Int) : RecentStore → List RecentObs → RecentStore → Prop where
  | nil {rs : RecentStore} : RecentRuns age rs [] rs
  | snoc {rs rs' rs'' : RecentStore} {h : List RecentObs} {o : RecentObs} :
      RecentRuns age rs h rs' → RecentStep age rs' o rs'' → RecentRuns age rs (h ++ [o]) rs''

end Appdash
