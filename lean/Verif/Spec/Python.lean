import Verif.Model.Python
import Verif.Spec.Wire

/-!
# Specification vocabulary for the Python client
-/

namespace Appdash.Py

/-- The Go annotation with the same key and value. -/
def Ann.go (a : Ann) : Annotation := ⟨a.key, some a.value⟩

/-- The call of a Go collector that corresponds to a packet. -/
def goCall (p : Packet) : Delivery := (p.1, p.2.map Ann.go)

/-- The packets whose `collect` has returned, in this order. -/
def returned (s : Sock) : List Packet :=
  s.log.filterMap fun e => match e.2 with | .returned => some e.1 | .raised _ => none

/-- The size of the serialized packet is at most what the server accepts. -/
def Fits (p : Packet) : Prop := (serialize p).length ≤ 1024 * 1024

instance (p : Packet) : Decidable (Fits p) := by unfold Fits; infer_instance

/-- No call of a thread other than `t` is part-way through its packet, and no call has failed part-way. -/
def Quiet (s : Sock) (t : Nat) : Prop :=
  (∀ u c, u ≠ t → s.active u = some c → c.totalSent = 0) ∧ ∀ p k, (p, Outcome.raised k) ∈ s.log → k = 0

/-- No `send` happens while another packet has been sent in part. -/
def Orderly : Sock → List SockOp → Prop
  | _, [] => True
  | s, op :: ops => (∀ t n, op = .send t n → Quiet s t) ∧ Orderly (s.step op) ops

/-- The thread of an operation. -/
def SockOp.thread : SockOp → Nat
  | .collect t _ => t
  | .send t _ => t
  | .error t => t

/-- The operation is a failure of `send`. -/
def SockOp.fails : SockOp → Bool
  | .send _ 0 => true
  | .error _ => true
  | _ => false

/-- The packets that factory `f` was asked to collect, in this order. -/
def collectedBy (s : Tw) (f : Nat) : List Packet := s.calls.filterMap fun e => if e.1 = f then some e.2 else none

/-- The packets written to the connections of factory `f` while they were up, in this order. -/
def writtenBy (s : Tw) (f : Nat) : List Packet := s.protos.flatMap fun q => if q.owner = f then q.written else []

/-- The packets that the next flush of factory `f` will write. -/
def pendingOf (s : Tw) (f : Nat) : List Packet :=
  match s.factories[f]? with
  | none => []
  | some F => F.pending.getD s.shared

/-- The connection of factory `f` is up. -/
def Up (s : Tw) (f : Nat) : Prop :=
  ∃ F c q, s.factories[f]? = some F ∧ F.remote = some c ∧ s.protos[c]? = some q ∧ q.connected = true

/-- Every flush happens while the connection of the factory is up. -/
def FlushesUp : Tw → List TwOp → Prop
  | _, [] => True
  | s, op :: ops => (∀ f, op = .flush f → Up s f) ∧ FlushesUp (s.step op) ops

end Appdash.Py
