import Verif.Model.CollectorServer
import Verif.Spec.Wire

/-!
# Vocabulary for a server with many clients
-/

namespace Appdash.Spec

/-- No handler can go on: all of them have ended or wait for bytes. -/
def Settled (s : ServerState) : Prop := ∀ s', ¬ HandlerStep s s'

/-- The packets that the bytes of one client consist of, read by a server that has no other client. -/
def packetsOf (received : Bytes) : List Delivery := (handleConn acceptAll received).1

/-- Any number of steps. -/
inductive ServerRuns : ServerState → ServerState → Prop
  | refl (s) : ServerRuns s s
  | step {s s' s'' : ServerState} : ServerRuns s s' → ServerStep s' s'' → ServerRuns s s''

/-- What one may expect: once `Accept` fails because the listener is closed, `Start` returns. -/
def ClosingStopsServer : Prop :=
  ∀ s, ServerReachable s → s.crashed = false → s.pc = .failed → ∃ s', ServerRuns s s' ∧ s'.pc = .returned

end Appdash.Spec
