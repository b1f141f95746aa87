import Verif.Model.Persist

/-!
# What a snapshot holds survives crashes: vocabulary
-/

namespace Appdash.Spec

/-- A call that collects a span of trace `t` or deletes it. -/
def Concerns (t : ID) : StoreOp → Prop
  | .collect id _ => id.trace = t
  | .delete ids => t ∈ ids

/-- In these events nothing is collected for trace `t` and it is not deleted, by any of the processes. -/
def Untouched (t : ID) (evs : List PersistEvent) : Prop := ∀ op, PersistEvent.call op ∈ evs → ¬ Concerns t op

/-- The calls on the store in these events. -/
def storeCalls (evs : List PersistEvent) : List StoreOp :=
  evs.filterMap fun
    | .call op => some op
    | _ => none

end Appdash.Spec
