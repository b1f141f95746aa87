import Verif.Spec.CollectorServer
import Verif.Spec.Causal
import Verif.Spec.OpenTracingShown

/-!
# Vocabulary for several processes that send to one server
-/

namespace Appdash.Spec

/-- A process whose `RemoteCollector` has no running call.  Every packet was within the server's limit, and nothing arrived but what was
accepted, once (a packet that is sent again may also have arrived at the first attempt, see `recorded_program_retried` for that). -/
structure ProcessDone (c : Mutex.Config remoteMachine) : Prop where
  reach : Mutex.Reachable remoteMachine {} c
  free : c.holder = none
  limit : ∀ d ∈ attempted c.log, WithinLimit d
  once : (c.shared.conns.flatMap fun k => packetsOf k.bytes).length = (accepted c.log).length

/-- The server has handled all bytes that the processes have sent.  It may have other clients, which send anything except packets of trace
`t` and packets that make it panic.  No connection broke on its side. -/
structure ServerDone (s : ServerState) (procs : List (Mutex.Config remoteMachine)) (t : ID) : Prop where
  reach : ServerReachable s
  settled : Settled s
  unbroken : ∀ k ∈ s.conns, k.broken = false
  conns : ∃ others : List Bytes,
    (s.conns.map SrvConn.received).Perm ((procs.flatMap fun c => c.shared.conns.map Conn.bytes) ++ others) ∧
    (∀ b ∈ others, (handleConn acceptAll b).2 ≠ .panicked) ∧ ∀ b ∈ others, ∀ d ∈ packetsOf b, d.1.trace ≠ t

/-- A process whose OpenTracing recorder `s` writes to a `RemoteCollector`.  All calls have returned, without an error, and the collector
needed no second connection. -/
structure OTProcess (env : OTEnv) (t : ID) (s : OTState) (c : Mutex.Config remoteMachine) : Prop where
  reach : ∃ verbose, OTReach env verbose s
  returned : ∀ th ∈ s.threads, th.2 = []
  ok : ∀ call ∈ s.calls, call.answer = none
  sends : forTrace t (accepted c.log) = forTrace t (collectedBy s)
  done : ProcessDone c
  steady : c.shared.conns.length ≤ 1

end Appdash.Spec
