import Verif.Model.Store

/-!
# Model of `LimitStore` (store.go:459-513) over a `MemoryStore`

`Collect` holds the `LimitStore`'s mutex from beginning to end, so calls are modelled as atomic.
-/

namespace Appdash

/-- store.go:461-475 `type LimitStore struct`.  The `int64` entries of the ring are modelled by the IDs with the same bit
pattern; `none` is the nil ring. -/
structure LimitStore where
  /-- `Max`; a negative value makes the first `Collect` panic and is not modelled. -/
  max : Nat
  /-- `DeleteStore` -/
  under : MemStore
  /-- `traces` -/
  traces : AMap ID Unit
  /-- `ring` -/
  ring : Option (List ID)
  /-- `nextInsertIdx` -/
  next : Nat

namespace LimitStore

/-- `&LimitStore{Max: max, DeleteStore: NewMemoryStore()}`. -/
def new (max : Nat) : LimitStore := { max := max, under := MemStore.new, traces := [], ring := none, next := 0 }

/-- store.go:509-512: remember the new trace and pass the span on. -/
def admit (ls : LimitStore) (ring : List ID) (id : SpanID) (as : List Annotation) : Option (LimitStore × Bool) :=
  let ls := { ls with
    traces := ls.traces.set id.trace ()
    ring := some (ring.set ls.next id.trace)
    next := (ls.next + 1) % ls.max }
  match ls.under.collect id as with
  | none => none
  | some ms => some ({ ls with under := ms }, false)

/-- store.go:493-512: the rest of `Collect`, once the ring exists.  See `collect` for `fails`. -/
def collectRing (ls : LimitStore) (ring : List ID) (id : SpanID) (as : List Annotation) (fails : Bool) :
    Option (LimitStore × Bool) :=
  -- store.go:493-495
  match ls.traces.get id.trace with
  | some _ =>
    match ls.under.collect id as with
    | none => none
    | some ms => some ({ ls with under := ms }, false)
  | none =>
    -- store.go:497-508
    match ring[ls.next]? with
    | none => none
    | some old =>
      if old ≠ 0 then
        let ls := { ls with traces := ls.traces.del old }
        if fails then some (ls, true)
        else ({ ls with under := ls.under.delete [old] }).admit ring id as
      else ls.admit ring id as

/-- store.go:479-513 `LimitStore.Collect`: the new state and whether an error is returned; `none` is a panic.  `fails`
says that the underlying `Delete`, if called, returns an error without deleting anything (the one of `MemoryStore` never
does; the underlying `Collect` always returns nil). -/
def collect (ls : LimitStore) (id : SpanID) (as : List Annotation) (fails : Bool) : Option (LimitStore × Bool) :=
  -- store.go:480-482
  if ls.max = 0 then some (ls, false)
  else
    -- store.go:485-488
    match ls.ring with
    | none =>
      let ring := List.replicate ls.max (0 : ID)
      ({ ls with ring := some ring, traces := [] }).collectRing ring id as fails
    | some ring => ls.collectRing ring id as fails

end LimitStore

/-- The mutating calls on a `LimitStore`; `Delete` is the underlying store's. -/
inductive LimitOp where
  | collect (id : SpanID) (as : List Annotation) (fails : Bool)
  | delete (ids : List ID)
deriving DecidableEq, Repr

namespace LimitStore

/-- Perform one call. -/
def step (ls : LimitStore) : LimitOp → Option LimitStore
  | .collect id as fails => (ls.collect id as fails).map Prod.fst
  | .delete ids => some { ls with under := ls.under.delete ids }

/-- Perform a sequence of calls; `none` if one of them panics. -/
def run (ls : LimitStore) : List LimitOp → Option LimitStore
  | [] => some ls
  | op :: ops =>
    match ls.step op with
    | none => none
    | some ls => ls.run ops

end LimitStore

end Appdash
