import Verif.Spec.Distributed
import Verif.Spec.Python
import Verif.Spec.Rfc3339

/-!
# Vocabulary for programs whose processes are written in Go and in Python
-/

namespace Appdash.Spec
open Py

/-- A process that sends to a collector server. -/
inductive Client where
  /-- Go, with a `RemoteCollector` -/
  | go (c : Mutex.Config remoteMachine)
  /-- Python, with a `sockcollector.RemoteCollector` on which the calls and sends `ops` happened -/
  | socket (ops : List SockOp)
  /-- Python, with a `twcollector.RemoteCollector`, the only one of its process, with which `ops` happened -/
  | twisted (ops : List TwOp)

/-- The end of a Twisted process. -/
def twEnd (ops : List TwOp) : Tw := Tw.run {} (.newFactory :: ops)

/-- What was collected in the process: the calls that were accepted (Go), that returned (socket), or all (Twisted). -/
def Client.collected : Client → List Delivery
  | .go c => accepted c.log
  | .socket ops => (returned (Sock.run {} ops)).map goCall
  | .twisted ops => (Py.collectedBy (twEnd ops) 0).map goCall

/-- The bytes that the process has sent, connection by connection. -/
def Client.streams : Client → List Bytes
  | .go c => c.shared.conns.map Conn.bytes
  | .socket ops => [(Sock.run {} ops).stream]
  | .twisted ops => (twEnd ops).protos.map fun q => q.written.flatMap msg

/-- The process has sent everything, and nothing went wrong on its side: all packets were within the server's limit; with Go, nothing
arrived twice; with a socket, no packet was sent between two parts of another one (as in C75); with Twisted, there was no flush without a
connection (as in C78) and nothing is pending. -/
def Client.Done : Client → Prop
  | .go c => ProcessDone c
  | .socket ops => Orderly {} ops ∧ ∀ t p, SockOp.collect t p ∈ ops → Fits p
  | .twisted ops => TwOp.newFactory ∉ ops ∧ FlushesUp (Tw.step {} .newFactory) ops ∧ pendingOf (twEnd ops) 0 = [] ∧
      ∀ p ∈ Py.collectedBy (twEnd ops) 0, Fits p

/-- The server has handled all bytes of the processes.  It may have other clients, which send anything except packets of trace `t` and
packets that make it panic.  No connection broke on its side. -/
structure MixedServerDone (s : ServerState) (clients : List Client) (t : ID) : Prop where
  reach : ServerReachable s
  settled : Settled s
  unbroken : ∀ k ∈ s.conns, k.broken = false
  conns : ∃ others : List Bytes, (s.conns.map SrvConn.received).Perm ((clients.flatMap Client.streams) ++ others) ∧
    (∀ b ∈ others, (handleConn acceptAll b).2 ≠ .panicked) ∧ ∀ b ∈ others, ∀ d ∈ packetsOf b, d.1.trace ≠ t

end Appdash.Spec

namespace Appdash.Py

/-- The events of the Python client that Go has event types for, with the times that the texts mean. -/
inductive Simple where
  | name (n : Bytes)
  | msg (m : Bytes)
  | log (m text : Bytes) (t : GoTime)
  | timespan (start stop : Bytes) (t u : GoTime)
  | sql (sql tag send recv : Bytes) (t u : GoTime)

/-- The Python event. -/
def Simple.py : Simple → PyEvent
  | .name n => spanName n
  | .msg m => msgEvent m
  | .log m text _ => logEvent m text
  | .timespan a b _ _ => Py.timespan a b
  | .sql q tag a b _ _ => sqlEvent q tag a b

/-- The texts of the times are RFC 3339 texts for these times. -/
def Simple.Ok : Simple → Prop
  | .name _ => True
  | .msg _ => True
  | .log _ text t => Appdash.Spec.RFC3339 text t
  | .timespan a b t u => Appdash.Spec.RFC3339 a t ∧ Appdash.Spec.RFC3339 b u
  | .sql _ _ a b t u => Appdash.Spec.RFC3339 a t ∧ Appdash.Spec.RFC3339 b u

/-- The event as a Go value: its schema and its fields. -/
def Simple.go : Simple → Bytes × GVal
  | .name n => (b!"name", .struct [.scalar (.string n)])
  | .msg m => (b!"msg", .struct [.scalar (.string m)])
  | .log m _ t => (b!"log", .struct [.scalar (.string m), .scalar (.time t)])
  | .timespan _ _ t u => (b!"Timespan", .struct [.scalar (.time t), .scalar (.time u)])
  | .sql q tag _ _ t u => (b!"SQL", .struct [.scalar (.string q), .scalar (.string tag), .scalar (.time t), .scalar (.time u)])

end Appdash.Py
