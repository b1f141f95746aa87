import Verif.Model.Wire
import Verif.Model.Mutex

/-!
# Model of `RemoteCollector` (collector.go:274-386) and of the network below it

The network may refuse any dial and may fail any write after any number of bytes.  The one assumption about it: a
connection on which a write has failed, or which has been closed, accepts no further bytes.
-/

namespace Appdash

/-- One dialled connection.  `bytes` is everything written to it; `log` (a history variable) lists the packets whose
`WriteMsg` succeeded on it. -/
structure Conn where
  bytes : Bytes := []
  dead : Bool := false
  log : List Delivery := []
deriving DecidableEq, Repr

/-- collector.go:300-315 `type RemoteCollector struct`: all connections dialled so far and the index of the current one
(`pconn`).  `writes` and `dials` (history variables) count `WriteMsg` calls and dial attempts. -/
structure Remote where
  conns : List Conn := []
  pconn : Option Nat := none
  writes : Nat := 0
  dials : Nat := 0
deriving DecidableEq, Repr

/-- The outcome the network chooses for a write: `none` is success, `some k` an error after at most `k` bytes. -/
abbrev WriteFault := Option Nat

/-- `net.Conn.Write`. -/
def Conn.write (c : Conn) (data : Bytes) (f : WriteFault) : Conn × Bool :=
  if c.dead then (c, false)
  else
    match f with
    | none => ({ c with bytes := c.bytes ++ data }, true)
    | some k => ({ c with bytes := c.bytes ++ data.take k, dead := true }, false)

namespace Remote

/-- `rc.pconn.Close(); rc.pconn = nil` (collector.go:326-329, 345-349). -/
def closeConn (r : Remote) : Remote :=
  match r.pconn with
  | none => r
  | some i => { r with conns := r.conns.set i { r.conns.getD i {} with dead := true }, pconn := none }

end Remote

/-! ## `Collect` and `Close`, statement by statement

`Collect` is collector.go:319-321 and 354-370 (`collectAndRetry`), with `connect` (325-339) and `collect` (372-386)
expanded where they are called.  `WriteMsg` (gogo/protobuf/io `varintWriter`) writes the length and then the message.
Debug logging is omitted, and so is the error that `Close` passes on. -/

/-- A call. -/
inductive RemoteCall where
  | collect (d : Delivery)
  | close
deriving DecidableEq, Repr

/-- Program points under `rc.mu`. -/
inductive RemotePC where
  /-- collector.go:358 -/
  | check (d : Delivery)
  /-- the two writes of `WriteMsg` in the first attempt -/
  | len1 (d : Delivery) (i : Nat)
  | msg1 (d : Delivery) (i : Nat)
  /-- collector.go:326-329 -/
  | disconnect (d : Delivery)
  /-- collector.go:331-338 -/
  | dial (d : Delivery)
  /-- the two writes of the second attempt -/
  | len2 (d : Delivery) (i : Nat)
  | msg2 (d : Delivery) (i : Nat)
  /-- collector.go:346-351 -/
  | close

/-- One statement.  The network's choices are made when they are needed. -/
inductive RemoteStep : RemotePC → Remote → Remote → RemotePC ⊕ Bool → Prop
  | checkNone (r : Remote) (d) : r.pconn = none → RemoteStep (.check d) r r (.inl (.disconnect d))
  | checkSome (r : Remote) (d i) : r.pconn = some i →
      RemoteStep (.check d) r { r with writes := r.writes + 1 } (.inl (.len1 d i))
  | len1Ok (r : Remote) (d i f) (c : Conn) :
      (r.conns.getD i {}).write (encVarint (marshal (newCollectPacket d.1 d.2)).length) f = (c, true) →
      RemoteStep (.len1 d i) r { r with conns := r.conns.set i c } (.inl (.msg1 d i))
  | len1Err (r : Remote) (d i f) (c : Conn) :
      (r.conns.getD i {}).write (encVarint (marshal (newCollectPacket d.1 d.2)).length) f = (c, false) →
      RemoteStep (.len1 d i) r { r with conns := r.conns.set i c } (.inl (.disconnect d))
  | msg1Ok (r : Remote) (d i f) (c : Conn) :
      (r.conns.getD i {}).write (marshal (newCollectPacket d.1 d.2)) f = (c, true) →
      RemoteStep (.msg1 d i) r { r with conns := r.conns.set i { c with log := c.log ++ [d] } } (.inr true)
  | msg1Err (r : Remote) (d i f) (c : Conn) :
      (r.conns.getD i {}).write (marshal (newCollectPacket d.1 d.2)) f = (c, false) →
      RemoteStep (.msg1 d i) r { r with conns := r.conns.set i c } (.inl (.disconnect d))
  | disconnect (r : Remote) (d) : RemoteStep (.disconnect d) r r.closeConn (.inl (.dial d))
  | dialErr (r : Remote) (d) : RemoteStep (.dial d) r { r with dials := r.dials + 1 } (.inr false)
  | dialOk (r : Remote) (d) :
      RemoteStep (.dial d) r
        { r with conns := r.conns ++ [{}], pconn := some r.conns.length, dials := r.dials + 1, writes := r.writes + 1 }
        (.inl (.len2 d r.conns.length))
  | len2Ok (r : Remote) (d i f) (c : Conn) :
      (r.conns.getD i {}).write (encVarint (marshal (newCollectPacket d.1 d.2)).length) f = (c, true) →
      RemoteStep (.len2 d i) r { r with conns := r.conns.set i c } (.inl (.msg2 d i))
  | len2Err (r : Remote) (d i f) (c : Conn) :
      (r.conns.getD i {}).write (encVarint (marshal (newCollectPacket d.1 d.2)).length) f = (c, false) →
      RemoteStep (.len2 d i) r { r with conns := r.conns.set i c } (.inr false)
  | msg2Ok (r : Remote) (d i f) (c : Conn) :
      (r.conns.getD i {}).write (marshal (newCollectPacket d.1 d.2)) f = (c, true) →
      RemoteStep (.msg2 d i) r { r with conns := r.conns.set i { c with log := c.log ++ [d] } } (.inr true)
  | msg2Err (r : Remote) (d i f) (c : Conn) :
      (r.conns.getD i {}).write (marshal (newCollectPacket d.1 d.2)) f = (c, false) →
      RemoteStep (.msg2 d i) r { r with conns := r.conns.set i c } (.inr false)
  | close (r : Remote) : RemoteStep .close r r.closeConn (.inr true)

/-- The collector as mutex-protected operations (collector.go:343-344, 355-356). -/
def remoteMachine : Mutex.Machine Remote RemoteCall Bool :=
  { L := RemotePC
    start := fun c => match c with
      | .collect d => .check d
      | .close => .close
    step := RemoteStep }

end Appdash
