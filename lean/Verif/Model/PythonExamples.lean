import Verif.Model.Python
import Batteries.Data.List.Basic

/-!
# Model of the example programs of the Python client (`python/example_*.py`)

`appdash.SpanID`, `MarshalEvent`, the events, the collectors and the OpenTracing recorder are those of `Verif.Model.Python`.  The random
IDs and the texts of the clock readings are parameters.
-/

namespace Appdash.Py

/-! ## example_socket.py and example_twisted.py

The two programs make the same calls of `collect`. -/

/-- The texts of the clock readings in one round of the loop: `timeString` of `sendTime`, of `recvTime` and of the time in `LogEvent`
(example_socket.py:29-38). -/
structure RoundTexts where
  send : Bytes
  recv : Bytes
  log : Bytes

/-- The span of round `i`: example_socket.py:17, 20 and 41 (example_twisted.py:16, 19 and 40).  The random numbers are `t` and `g`. -/
def exampleSpan (t : ID) (g : Nat → ID) : Nat → SpanID
  | 0 => rootSpanID t (g 0)
  | i + 1 => childSpanID (exampleSpan t g i) (g (i + 1))

/-- The events of round `i`: example_socket.py:22-38 (example_twisted.py:21-37). -/
def exampleEvents (x : RoundTexts) (i : Nat) : List PyEvent :=
  [if i = 0 then spanName b!"Request" else spanName b!"SQL Query",
    sqlEvent b!"SELECT * FROM table_name;" b!"foobar" x.send x.recv] ++
  if i % 2 = 0 then [logEvent b!"Hello world!" x.log] else []

/-- The calls of `collect`: example_socket.py:21-41 (example_twisted.py:20-40).  Each event is marshalled on its own; the order of the fields
is that of Python's dictionaries. -/
def ExampleCalls (t : ID) (g : Nat → ID) (x : Nat → RoundTexts) (ps : List Packet) : Prop :=
  ∃ anns : Nat → List (List Ann), (∀ i < 7, List.Forall₂ Marshals (exampleEvents (x i) i) (anns i)) ∧
    ps = (List.range 7).flatMap fun i => (anns i).map fun as => (exampleSpan t g i, as)

/-- example_twisted.py:13, 16-44: the calls are made before the reactor runs; then it connects, and the `LoopingCall` flushes, `n + 1` times.
The factory is made before (`twEnd` begins with it).  Simplified: the connection is not lost. -/
def exampleTwisted (ps : List Packet) (n : Nat) : List TwOp :=
  ps.map (TwOp.collect 0) ++ .connect 0 :: List.replicate (n + 1) (.flush 0)

/-! ## example_opentracing_socket.py -/

/-- The texts of the clock readings in one round of the loop: start and end of the span and of its child. -/
structure OTTexts where
  start : Bytes
  stop : Bytes
  childStart : Bytes
  childStop : Bytes

/-- example_opentracing_socket.py:20-28, 36: the span of round `i`, with the IDs that basictracer made.  The order of the tags is that of a
dictionary, given by `swap`.  basictracer's default sampler samples every trace; nothing sets baggage.  The log of
example_opentracing_socket.py:30-31 is kept by basictracer in `span.logs`, which `OTSpan` does not have, since recorder.py does not use
it. -/
def otExampleSpan (t g : ID) (x : OTTexts) (swap : Bool) (i : Nat) : OTSpan where
  sampled := true
  trace := t
  span := g
  parent := none
  operation := if i = 0 then b!"Request" else b!"SQL Query"
  start := x.start
  stop := x.stop
  tags := some (if swap then [(b!"foo", .str b!"bar"), (b!"query", .str b!"SELECT * FROM table_name;")]
    else [(b!"query", .str b!"SELECT * FROM table_name;"), (b!"foo", .str b!"bar")])
  baggage := some []

/-- example_opentracing_socket.py:33: the child of round `i`; `child_of` makes it a span of the same trace. -/
def otExampleChild (t g c : ID) (x : OTTexts) : OTSpan where
  sampled := true
  trace := t
  span := c
  parent := some g
  operation := b!"child"
  start := x.childStart
  stop := x.childStop
  tags := some []
  baggage := some []

/-- example_opentracing_socket.py:18-36: the calls of `collect` that `record_span` makes.  The child is finished first. -/
def OTExampleCalls (t g c : Nat → ID) (x : Nat → OTTexts) (ps : List Packet) : Prop :=
  ∃ (swap : Nat → Bool) (child span : Nat → List Packet),
    (∀ i < 7, Records (otExampleChild (t i) (g i) (c i) (x i)) (child i, false) ∧
      Records (otExampleSpan (t i) (g i) (x i) (swap i) i) (span i, false)) ∧
    ps = (List.range 7).flatMap fun i => child i ++ span i

end Appdash.Py
