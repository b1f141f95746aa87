import Verif.Model.AnnotationsText
import Verif.Model.Span
import Verif.Model.Strconv

/-!
# Model of what `CollectorServer` and `RemoteCollector` log (collector.go:358-386, 461-469)

A message is the text that is given to the logger, without the time and the line feed that the logger adds.
-/

namespace Appdash

/-- The hexadecimal digits of a number, without leading zeros; `n` bounds their number. -/
def ptrDigits : Nat → Nat → Bytes
  | 0, _ => []
  | n + 1, u => if u < 16 then [hexDigitChar u] else ptrDigits n (u / 16) ++ [hexDigitChar (u % 16)]

/-- `%v` of a pointer to a number: its address. -/
def pointerText (addr : Nat) : Bytes := b!"0x" ++ ptrDigits 16 addr

/-- collector.go:463. -/
def receivedMsg (client : Bytes) (id : SpanID) (n : Nat) : Bytes :=
  b!"Client " ++ client ++ b!": received span " ++ id.toText ++ b!" with " ++ formatDec n ++ b!" annotations"

/-- collector.go:467.  `p.Spanid.Span` is a pointer (internal/wire/collector.pb.go:58); `addr` is where it points to. -/
def annotationMsg (p : Nat → Bool) (client : Bytes) (addr i : Nat) (a : Annotation) : Bytes :=
  b!"Client " ++ client ++ b!": span " ++ pointerText addr ++ b!": annotation " ++ formatDec i ++ b!": " ++ a.key ++ b!"=" ++
    goQuote p (a.value.getD [])

/-- collector.go:466-468: the loop over the annotations, beginning at `i`. -/
def annotationMsgs (p : Nat → Bool) (client : Bytes) (addr : Nat) : Nat → List Annotation → List Bytes
  | _, [] => []
  | i, a :: as => annotationMsg p client addr i a :: annotationMsgs p client addr (i + 1) as

/-- What was received: the address of the span's number in memory, the span and the annotations. -/
structure Received where
  addr : Nat
  id : SpanID
  anns : List Annotation

/-- collector.go:462-469: what is logged about a packet. -/
def packetMsgs (p : Nat → Bool) (client : Bytes) (debug trace : Bool) (r : Received) : List Bytes :=
  (if debug || trace then [receivedMsg client r.id r.anns.length] else []) ++ (if trace then annotationMsgs p client r.addr 0 r.anns else [])

/-- collector.go:452-474: what is logged about the packets of a connection. -/
def connMsgs (p : Nat → Bool) (client : Bytes) (debug trace : Bool) (rs : List Received) : List Bytes :=
  (rs.map (packetMsgs p client debug trace)).flatten

/-- collector.go:374-386 `collect`: what is logged if the write succeeds or fails. -/
def writeMsgs (debug : Bool) (id : SpanID) (ok : Bool) : List Bytes :=
  if debug then (b!"Sending " ++ id.toText) :: (if ok then [b!"Sent " ++ id.toText] else []) else []

/-- collector.go:354-372 `collectAndRetry`: what is logged, and whether nil is returned.  `connected` is whether there is a connection;
`first`, `dial` and `second` are whether the first write, the dial and the second write succeed. -/
def retryMsgs (debug : Bool) (id : SpanID) (connected first dial second : Bool) : List Bytes × Bool :=
  let again := if dial then (writeMsgs debug id second, second) else ([], false)
  if connected then
    if first then (writeMsgs debug id true, true)
    else (writeMsgs debug id false ++ (if debug then [b!"Reconnecting to send " ++ id.toText] else []) ++ again.1, again.2)
  else again

end Appdash
