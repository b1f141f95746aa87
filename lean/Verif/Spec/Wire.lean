import Verif.Model.Remote

/-! # Specification vocabulary for the collector protocol -/

namespace Appdash

/-- The bytes of one packet on the wire. -/
def frameOf (d : Delivery) : Bytes := frame (newCollectPacket d.1 d.2)

/-- The bytes of packets sent one after another. -/
def sent (ds : List Delivery) : Bytes := ds.flatMap frameOf

/-- The encoded packet is within the server's limit of 1 MiB. -/
def WithinLimit (d : Delivery) : Prop := (marshal (newCollectPacket d.1 d.2)).length ≤ 1024 * 1024

instance (d : Delivery) : Decidable (WithinLimit d) := by unfold WithinLimit; infer_instance

/-- A collector that accepts everything. -/
def acceptAll : List Delivery → Delivery → Bool := fun _ _ => false

/-- The packets given to finished `Collect` calls, in order. -/
def attempted (log : List (Nat × RemoteCall × Bool)) : List Delivery :=
  log.filterMap fun e => match e.2.1 with
    | .collect d => some d
    | .close => none

/-- The packets whose `Collect` returned nil, in order. -/
def accepted (log : List (Nat × RemoteCall × Bool)) : List Delivery :=
  log.filterMap fun e => match e.2.1 with
    | .collect d => if e.2.2 then some d else none
    | .close => none

/-- `Collect` has been called with `d` and has finished or is running. -/
def Called (c : Mutex.Config remoteMachine) (d : Delivery) : Prop :=
  d ∈ attempted c.log ∨ ∃ i l, c.threads i = .inside (.collect d) l

end Appdash
