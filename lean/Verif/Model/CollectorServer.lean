import Verif.Model.Wire
import Verif.Model.Store

/-!
# Model of the whole `CollectorServer` (collector.go:397-475) over a `MemoryStore`

`Start` accepts connections and starts a goroutine for each, which reads packets as the bytes arrive and passes them to the collector,
here a `MemoryStore` behind `NewLocalCollector`, as in cmd/appdash/serve_cmd.go:162-165.  Any number of connections are handled at the
same time; the steps of their goroutines are interleaved in any order.  Reading a packet and storing it is one step: reading touches
nothing that is shared, and the store protects its calls by a mutex (C27).  Log messages are counted, not modelled.
-/

namespace Appdash

/-- A connection, as the server sees it. -/
structure SrvConn where
  /-- the bytes that have arrived -/
  received : Bytes := []
  /-- those of them that the handler has not read -/
  unread : Bytes := []
  /-- the client has closed its side -/
  ended : Bool := false
  /-- how the handler ended, if it did -/
  result : Option ConnEnd := none
  /-- reading failed because of the network -/
  broken : Bool := false
deriving DecidableEq, Repr

/-- Where the goroutine that runs `Start` is (collector.go:426-440). -/
inductive StartPC where
  /-- line 428: about to call `Accept`, or waiting in it -/
  | accept
  /-- lines 429-431: `Accept` has failed -/
  | failed
  /-- lines 434-438: a client is connected -/
  | connected
  /-- `Start` has returned -/
  | returned
deriving DecidableEq, Repr

/-- The server, the store behind it, and the calls on the store so far, each with the number of the connection it came from. -/
structure ServerState where
  pc : StartPC
  conns : List SrvConn
  calls : List (Nat × Delivery)
  store : MemStore
  logged : Nat
  /-- a goroutine has panicked, which ends the process -/
  crashed : Bool

/-- A server that was just created by `NewServer` (collector.go:402-405), whose `Start` is called. -/
def ServerState.new : ServerState :=
  { pc := .accept, conns := [], calls := [], store := MemStore.new, logged := 0, crashed := false }

/-- What `ReadMsg` (collector.go:454) does when these bytes have arrived: it returns what it returns for a stream that consists of them,
or it waits for more (`none`).  It waits if the connection is not ended and the length or the message is incomplete. -/
def readNow (unread : Bytes) (ended : Bool) : Option (ReadRes WPacket) :=
  if ended then some (readMsg unread)
  else
    match decVarintLoop 10 unread with
    | none => if unread.length < 10 then none else some (readMsg unread)
    | some (n, r) => if n ≤ maxMessageSize ∧ r.length < n then none else some (readMsg unread)

/-- Change connection `i`. -/
def ServerState.setConn (s : ServerState) (i : Nat) (k : SrvConn) : ServerState := { s with conns := s.conns.set i k }

/-- A step of a handler. -/
inductive HandlerStep : ServerState → ServerState → Prop
  /-- collector.go:461-474: a packet is read and collected. -/
  | collect {s : ServerState} {i : Nat} {k : SrvConn} {p : WPacket} {rest : Bytes} {id : SpanID} {as : List Annotation} {ms : MemStore} :
      s.crashed = false → s.conns[i]? = some k → k.result = none → readNow k.unread k.ended = some (.ok p rest) →
      spanIDFromWire p.spanid = some id → annotationsFromWire p.annotation = some as → s.store.collect id as = some ms →
      HandlerStep s { s.setConn i { k with unread := rest } with calls := s.calls ++ [(i, (id, as))], store := ms }
  /-- collector.go:461, 472: a nil pointer is dereferenced. -/
  | panic {s : ServerState} {i : Nat} {k : SrvConn} {p : WPacket} {rest : Bytes} :
      s.crashed = false → s.conns[i]? = some k → k.result = none → readNow k.unread k.ended = some (.ok p rest) →
      spanIDFromWire p.spanid = none ∨ annotationsFromWire p.annotation = none →
      HandlerStep s { s.setConn i { k with result := some .panicked } with crashed := true }
  /-- collector.go:455-457: the end of the stream. -/
  | eof {s : ServerState} {i : Nat} {k : SrvConn} :
      s.crashed = false → s.conns[i]? = some k → k.result = none → readNow k.unread k.ended = some .eof →
      HandlerStep s (s.setConn i { k with result := some .closed })
  /-- collector.go:458, 443-447: what was read is no packet. -/
  | fail {s : ServerState} {i : Nat} {k : SrvConn} :
      s.crashed = false → s.conns[i]? = some k → k.result = none → readNow k.unread k.ended = some .err →
      HandlerStep s { s.setConn i { k with result := some .readError } with logged := s.logged + 1 }

/-- A step of the server or of its environment. -/
inductive ServerStep : ServerState → ServerState → Prop
  /-- collector.go:428: `Accept` returns a connection. -/
  | accept {s : ServerState} : s.crashed = false → s.pc = .accept →
      ServerStep s { s with pc := .connected }
  /-- collector.go:434-438: a goroutine is started for the connection. -/
  | spawn {s : ServerState} : s.crashed = false → s.pc = .connected →
      ServerStep s { s with pc := .accept, conns := s.conns ++ [{}] }
  /-- collector.go:428: `Accept` returns an error. -/
  | acceptErr {s : ServerState} : s.crashed = false → s.pc = .accept →
      ServerStep s { s with pc := .failed }
  /-- collector.go:429-432 -/
  | again {s : ServerState} : s.crashed = false → s.pc = .failed →
      ServerStep s { s with pc := .accept, logged := s.logged + 1 }
  | handler {s s' : ServerState} : HandlerStep s s' → ServerStep s s'
  /-- Bytes arrive. -/
  | arrive {s : ServerState} {i : Nat} {k : SrvConn} {b : Bytes} : s.conns[i]? = some k → k.ended = false →
      ServerStep s (s.setConn i { k with received := k.received ++ b, unread := k.unread ++ b })
  /-- The client closes the connection. -/
  | finish {s : ServerState} {i : Nat} {k : SrvConn} : s.conns[i]? = some k →
      ServerStep s (s.setConn i { k with ended := true })
  /-- collector.go:458: the connection breaks. -/
  | broken {s : ServerState} {i : Nat} {k : SrvConn} :
      s.crashed = false → s.conns[i]? = some k → k.result = none →
      ServerStep s { s.setConn i { k with result := some .readError, broken := true } with logged := s.logged + 1 }

/-- The states of the server. -/
inductive ServerReachable : ServerState → Prop
  | init : ServerReachable ServerState.new
  | step {s s' : ServerState} : ServerReachable s → ServerStep s s' → ServerReachable s'

/-- Any number of steps of handlers. -/
inductive HandlerRuns : ServerState → ServerState → Prop
  | refl (s) : HandlerRuns s s
  | step {s s' s'' : ServerState} : HandlerStep s s' → HandlerRuns s' s'' → HandlerRuns s s''

/-- The calls on the store that came from connection `i`, oldest first. -/
def ServerState.callsFrom (s : ServerState) (i : Nat) : List Delivery := (s.calls.filter (·.1 == i)).map Prod.snd

end Appdash
