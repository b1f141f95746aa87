import Verif.Spec.Wire

/-! # Specification for C161: how often and in which order packets arrive -/

namespace Appdash

/-- What the servers may have been given after the calls of `log`: each `Collect` call adds its packet at most twice, and at least once if it
returned nil; packets come in the order of the calls. -/
inductive Arrived : List (Nat × RemoteCall × Bool) → List Delivery → Prop
  | nil : Arrived [] []
  | collect {log : List (Nat × RemoteCall × Bool)} {ds : List Delivery} (i : Nat) (d : Delivery) (ok : Bool) (n : Nat) :
      Arrived log ds → n ≤ 2 → (ok = true → 1 ≤ n) → Arrived (log ++ [(i, .collect d, ok)]) (ds ++ List.replicate n d)
  | close {log : List (Nat × RemoteCall × Bool)} {ds : List Delivery} (i : Nat) (ok : Bool) :
      Arrived log ds → Arrived (log ++ [(i, .close, ok)]) ds

/-- What the servers of all connections, in the order in which they were dialled, give to their collector when they accept everything. -/
def received (r : Remote) : List Delivery := r.conns.flatMap fun k => (handleConn acceptAll k.bytes).1

end Appdash
