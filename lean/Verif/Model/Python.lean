import Verif.Model.IDGen
import Verif.Model.Wire
import Verif.Model.Event

/-!
# Model of the Python client (`python/appdash`)

The client is written in Python 2: a `str` is a string of bytes.  Keys and values of annotations are modelled as such
strings; IDs are 64-bit numbers (spanid.py:9-10 generates no others, and protobuf rejects others).
-/

namespace Appdash.Py

/-! ## Span IDs (spanid.py) -/

/-- spanid.py:46-49 `SpanID.__init__` with `root=True`; the arguments are what `_generateID` returned. -/
def rootSpanID (g1 g2 : ID) : SpanID := { trace := g1, span := g2, parent := 0 }

/-- spanid.py:50-53 `SpanID.__init__` with `parent=…`. -/
def childSpanID (parent : SpanID) (g : ID) : SpanID := { trace := parent.trace, span := g, parent := parent.span }

/-- spanid.py:58 `format(i, 'x')`: the hexadecimal digits without padding. -/
def formatHex (i : ID) : Bytes := hexLoop 16 i.toNat []

/-- spanid.py:57-59 `__hexStr`: `h.zfill(w)` puts zeros in front of `h` until it has `w` characters. -/
def hexStr (i : ID) : Bytes :=
  let h := formatHex i
  List.replicate (h.length % 2) 48 ++ h

/-- `sep.join(l)`. -/
def join (sep : Bytes) : List Bytes → Bytes
  | [] => []
  | [s] => s
  | s :: l => s ++ sep ++ join sep l

/-- spanid.py:63-68 `SpanID.__str__`. -/
def str (id : SpanID) : Bytes :=
  join b!"/" (if id.parent = 0 then [hexStr id.trace, hexStr id.span] else [hexStr id.trace, hexStr id.span, hexStr id.parent])

/-- spanid.py:71-82 `Annotation`.  Unlike in Go, the value is always present. -/
structure Ann where
  key : Bytes
  value : Bytes
deriving DecidableEq, Repr, Inhabited

/-- The arguments of `collect`. -/
abbrev Packet := SpanID × List Ann

/-! ## Encoding (varint.py, encode.py, collector_pb2.py) -/

/-- The loop of protobuf's `_EncodeVarint` (called from varint.py:14): `while value: write(chr(0x80|bits)); bits = value & 0x7f;
value >>= 7`, then `write(chr(bits))`.  The fuel given by `varint` always suffices. -/
def varintLoop : Nat → Nat → Nat → Bytes
  | 0, bits, _ => [UInt8.ofNat bits]
  | f + 1, bits, value =>
    if value = 0 then [UInt8.ofNat bits]
    else UInt8.ofNat (0x80 ||| bits) :: varintLoop f (value &&& 0x7f) (value >>> 7)

/-- varint.py:11-15 `encode`. -/
def varint (i : Nat) : Bytes := varintLoop i (i &&& 0x7f) (i >>> 7)

/-- The tag of a field as protobuf's Python runtime writes it. -/
def tag (field wire : Nat) : Bytes := varint ((field <<< 3) ||| wire)

/-- A `fixed64` field (collector_pb2.py:28-48, type 6). -/
def fixed64 (field : Nat) (v : UInt64) : Bytes := tag field 1 ++ leBytes 8 v.toNat

/-- A `string` or `bytes` field (collector_pb2.py:69-82, types 9 and 12). -/
def bytesField (field : Nat) (v : Bytes) : Bytes := tag field 2 ++ varint v.length ++ v

/-- The group of an annotation (collector_pb2.py:110-116, 68-83). -/
def annGroup (a : Ann) : Bytes := tag 5 3 ++ bytesField 6 a.key ++ bytesField 7 a.value ++ tag 5 4

/-- encode.py:14-31 `_collect` and `msg.SerializeToString()` (encode.py:9).  All fields are assigned, so all are written, in
the order of their numbers. -/
def serialize (p : Packet) : Bytes :=
  tag 1 3 ++ fixed64 2 p.1.trace ++ fixed64 3 p.1.span ++ fixed64 4 p.1.parent ++ tag 1 4 ++ p.2.flatMap annGroup

/-- encode.py:8-10 `_msg`. -/
def msg (p : Packet) : Bytes := varint (serialize p).length ++ serialize p

/-! ## The socket collector (sockcollector.py) -/

/-- A call of `RemoteCollector.collect` in progress: its `buf` and `totalSent` (sockcollector.py:54-57). -/
structure Call where
  packet : Packet
  buf : Bytes
  totalSent : Nat

/-- How a call ended: it returned, or it raised an exception after having sent some bytes. -/
inductive Outcome where
  | returned
  | raised (sent : Nat)
deriving DecidableEq, Repr

/-- A `RemoteCollector` with a connected socket, used by any number of threads. -/
structure Sock where
  /-- all bytes that the socket has accepted -/
  stream : Bytes := []
  /-- the call that each thread is in -/
  active : Nat → Option Call := fun _ => none
  /-- the calls that have ended, in this order -/
  log : List (Packet × Outcome) := []

/-- What threads and network do. -/
inductive SockOp where
  /-- thread `t` calls `collect` (sockcollector.py:52-57) -/
  | collect (t : Nat) (p : Packet)
  /-- `sock.send` of thread `t` returns `n` (sockcollector.py:59-62), or everything if `n` is more -/
  | send (t n : Nat)
  /-- `sock.send` of thread `t` raises an exception, such as `socket.timeout` (sockcollector.py:59) -/
  | error (t : Nat)
deriving DecidableEq, Repr

/-- sockcollector.py:52-62 `collect`, one step of one thread.  Operations that make no sense in a state (a thread that is not
in a call has no send) change nothing. -/
def Sock.step (s : Sock) : SockOp → Sock
  | .collect t p =>
    match s.active t with
    | some _ => s
    | none => { s with active := fun u => if u = t then some ⟨p, msg p, 0⟩ else s.active u }
  | .send t n =>
    match s.active t with
    | none => s
    | some c =>
      let rest := c.buf.drop c.totalSent
      let sent := min n rest.length
      if sent = 0 then
        { s with active := fun u => if u = t then none else s.active u, log := s.log ++ [(c.packet, .raised c.totalSent)] }
      else if c.totalSent + sent < c.buf.length then
        { s with
          stream := s.stream ++ rest.take sent
          active := fun u => if u = t then some { c with totalSent := c.totalSent + sent } else s.active u }
      else
        { stream := s.stream ++ rest.take sent
          active := fun u => if u = t then none else s.active u
          log := s.log ++ [(c.packet, .returned)] }
  | .error t =>
    match s.active t with
    | none => s
    | some c =>
      { s with active := fun u => if u = t then none else s.active u, log := s.log ++ [(c.packet, .raised c.totalSent)] }

/-- A sequence of steps. -/
def Sock.run (s : Sock) : List SockOp → Sock
  | [] => s
  | op :: ops => (s.step op).run ops

/-! ## The Twisted collector (twcollector.py) -/

/-- A `CollectorProtocol` (twcollector.py:7-23): the factory that built it, whether its connection is up, and the packets
written while it was.  A Twisted transport ignores writes after the connection was lost. -/
structure Proto where
  owner : Nat
  connected : Bool
  written : List Packet
deriving DecidableEq, Repr

/-- A `RemoteCollectorFactory` (twcollector.py:26-39).  `pending = none`: the instance has no attribute `_pending` of its own, so
`self._pending` is the list in the class. -/
structure Factory where
  pending : Option (List Packet) := none
  remote : Option Nat := none
deriving DecidableEq, Repr

/-- All factories and protocols of a process.  `shared` is the class attribute `_pending` (twcollector.py:35). -/
structure Tw where
  shared : List Packet := []
  factories : List Factory := []
  protos : List Proto := []
  /-- the calls of `collect` so far, each with its factory (not part of the program) -/
  calls : List (Nat × Packet) := []
deriving DecidableEq, Repr

/-- What the application and the reactor do. -/
inductive TwOp where
  /-- `RemoteCollectorFactory(reactor)` -/
  | newFactory
  /-- `collect` on factory `f` -/
  | collect (f : Nat) (p : Packet)
  /-- factory `f` gets a connection -/
  | connect (f : Nat)
  /-- connection `c` is lost -/
  | lost (c : Nat)
  /-- the `LoopingCall` of factory `f` runs -/
  | flush (f : Nat)
deriving DecidableEq, Repr

/-- One operation.  `1/2` is 0 in Python 2, so the calls of `__flush` (twcollector.py:68-71) follow each other as fast as the
reactor allows; here they happen at any time. -/
def Tw.step (s : Tw) : TwOp → Tw
  -- twcollector.py:37-39 `__init__`
  | .newFactory => { s with factories := s.factories ++ [{}] }
  -- twcollector.py:49-53 `collect`: `self._pending.append(…)` changes the list of the class unless there is an own one
  | .collect f p =>
    match s.factories[f]? with
    | none => s
    | some F =>
      match F.pending with
      | none => { s with shared := s.shared ++ [p], calls := s.calls ++ [(f, p)] }
      | some l =>
        { s with factories := s.factories.set f { F with pending := some (l ++ [p]) }, calls := s.calls ++ [(f, p)] }
  -- twcollector.py:76-86 `buildProtocol`
  | .connect f =>
    match s.factories[f]? with
    | none => s
    | some F =>
      { s with
        factories := s.factories.set f { F with remote := some s.protos.length }
        protos := s.protos ++ [⟨f, true, []⟩] }
  | .lost c =>
    match s.protos[c]? with
    | none => s
    | some q => { s with protos := s.protos.set c { q with connected := false } }
  -- twcollector.py:58-66 `__flush`; it is first called after `buildProtocol` (twcollector.py:85), so `_remote` is set
  | .flush f =>
    match s.factories[f]? with
    | none => s
    | some F =>
      let pending := F.pending.getD s.shared
      if pending = [] then s
      else
        match F.remote with
        | none => s
        | some c =>
          match s.protos[c]? with
          | none => s
          | some q =>
            { s with
              factories := s.factories.set f { F with pending := some [] }
              protos := if q.connected then s.protos.set c { q with written := q.written ++ pending } else s.protos }

/-- A sequence of operations. -/
def Tw.run (s : Tw) : List TwOp → Tw
  | [] => s
  | op :: ops => (s.step op).run ops

/-! ## Events (event.py) -/

/-- A dictionary of strings: its items in the order in which Python happens to iterate over them.  Keys are distinct. -/
abbrev Dict := AMap Bytes Bytes

/-- An event object: its `schema` and what its `marshal()` returns. -/
structure PyEvent where
  schema : Bytes
  fields : Dict
deriving DecidableEq, Repr

/-- event.py:13-18 `MarshalEvent`, as a relation: the items of the dictionary come in any order. -/
def Marshals (e : PyEvent) (as : List Ann) : Prop :=
  ∃ items : List (Bytes × Bytes), items.Perm e.fields ∧
    as = items.map (fun kv => ⟨kv.1, kv.2⟩) ++ [⟨b!"_schema:" ++ e.schema, []⟩]

/-- event.py:21-32 `SpanNameEvent`. -/
def spanName (name : Bytes) : PyEvent := ⟨b!"name", [(b!"Name", name)]⟩

/-- event.py:35-46 `MsgEvent`. -/
def msgEvent (m : Bytes) : PyEvent := ⟨b!"msg", [(b!"Msg", m)]⟩

/-- event.py:50-64 `LogEvent`.  `time` is the result of `timeString` (event.py:9-10), which comes from package strict_rfc3339. -/
def logEvent (m time : Bytes) : PyEvent := ⟨b!"log", [(b!"Msg", m), (b!"Time", time)]⟩

/-- event.py:66-77 `TimespanEvent`, given the texts of the times. -/
def timespan (start stop : Bytes) : PyEvent := ⟨b!"Timespan", [(b!"Span.Start", start), (b!"Span.End", stop)]⟩

/-- event.py:81-111 `SQLEvent`, given the texts of the times. -/
def sqlEvent (sql tag send recv : Bytes) : PyEvent :=
  ⟨b!"SQL", [(b!"SQL", sql), (b!"Tag", tag), (b!"ClientSend", send), (b!"ClientRecv", recv)]⟩

/-- event.py:116-122 `_flattenReqRes`.  The values are given as their `str`. -/
def flattenReqRes (info : Dict) (into : Dict) : Dict :=
  info.foldl (fun d kv =>
    if kv.1 = b!"Headers" then AMap.set d (b!"Request.Headers." ++ kv.1) kv.2 else AMap.set d (b!"Request." ++ kv.1) kv.2) into

/-- event.py:153-194 `HTTPServerEvent`. -/
def httpServerEvent (route user recv send : Bytes) (requestInfo responseInfo : Dict) : PyEvent :=
  ⟨b!"HTTPServer", flattenReqRes responseInfo (flattenReqRes requestInfo
    [(b!"Route", route), (b!"User", user), (b!"ServerRecv", recv), (b!"ServerSend", send)])⟩

/-- event.py:224-255 `HTTPClientEvent`. -/
def httpClientEvent (recv send : Bytes) (requestInfo responseInfo : Dict) : PyEvent :=
  ⟨b!"HTTPClient", flattenReqRes responseInfo (flattenReqRes requestInfo [(b!"ServerRecv", recv), (b!"ServerSend", send)])⟩

/-! ## The OpenTracing recorder (recorder.py) -/

/-- The value of a tag or baggage item: a `str`, or anything else (a number, `True`, a `unicode` object).  Assigning anything
else to a `bytes` field of a protobuf message (encode.py:27) raises `TypeError`. -/
inductive Value where
  | str (s : Bytes)
  | other
deriving DecidableEq, Repr

/-- A finished span of basictracer. -/
structure OTSpan where
  sampled : Bool
  trace : ID
  span : ID
  parent : Option ID
  operation : Bytes
  /-- `timeString` of `start_time` and of `start_time + duration` -/
  start : Bytes
  stop : Bytes
  tags : Option (List (Bytes × Value))
  baggage : Option (List (Bytes × Value))
deriving DecidableEq, Repr

/-- recorder.py:33-35: the loop over the tags.  The result is the calls that `collect` accepted and whether an exception was
raised. -/
def recordTags (id : SpanID) : List (Bytes × Value) → List Packet × Bool
  | [] => ([], false)
  | (k, .str v) :: l => let r := recordTags id l; ((id, [⟨k, v⟩]) :: r.1, r.2)
  | (_, .other) :: _ => ([], true)

/-- recorder.py:37-39: the loop over the baggage.  `span.contex` is a misspelling; the attribute does not exist, so evaluating
the arguments of the first call raises `AttributeError`. -/
def recordBaggage : List (Bytes × Value) → List Packet × Bool
  | [] => ([], false)
  | _ :: _ => ([], true)

/-- recorder.py:17-39 `AppdashRecorder.record_span` with a collector that does not fail, as a relation between a span, the
packets collected and whether an exception was raised. -/
def Records (sp : OTSpan) (r : List Packet × Bool) : Prop :=
  if sp.sampled = false then r = ([], false)
  else
    let id : SpanID := { trace := sp.trace, span := sp.span, parent := sp.parent.getD 0 }
    ∃ name times, Marshals (spanName sp.operation) name ∧ Marshals (timespan sp.start sp.stop) times ∧
      let tags := recordTags id (sp.tags.getD [])
      let baggage := if tags.2 then ([], true) else recordBaggage (sp.baggage.getD [])
      r = ((id, name) :: (id, times) :: tags.1 ++ baggage.1, baggage.2)

end Appdash.Py
