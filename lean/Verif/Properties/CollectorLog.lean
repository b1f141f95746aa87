import Verif.Proofs.CollectorLog

/-!
# C165: the logs of servers and remote collectors tell what was received and sent
-/

namespace Appdash
open Spec

/-- The full statement: with `Trace` set, every message about an annotation names the span of the packet. -/
def TraceNamesSpan : Prop :=
  ∀ (p : Nat → Bool) (client : Bytes) (r : Received) (i : Nat) (a : Annotation), a ∈ r.anns →
    r.id.span.toText <:+: annotationMsg p client r.addr i a

/-- **C165** (the span; false in general).  It names an address in memory instead. -/
theorem trace_names_address : ¬ TraceNamesSpan := by
  intro h
  have := h (fun _ => false) b!"c" ⟨0xc000012340, ⟨1, 2, 0⟩, [⟨b!"k", some b!"v"⟩]⟩ 0 ⟨b!"k", some b!"v"⟩ (by simp)
  exact absurd this (by decide +kernel)

/-- **C165** (the span).  Messages about annotations do not depend on the span at all: only the address is shown. -/
theorem trace_hides_span (p : Nat → Bool) (client : Bytes) (r r' : Received) (h1 : r.addr = r'.addr) (h2 : r.anns = r'.anns) :
    ∃ m m' rest, packetMsgs p client false true r = m :: rest ∧ packetMsgs p client false true r' = m' :: rest := by
  refine ⟨receivedMsg client r.id r.anns.length, receivedMsg client r'.id r'.anns.length, annotationMsgs p client r.addr 0 r.anns, ?_, ?_⟩
  · simp [packetMsgs]
  · simp [packetMsgs, h1, h2]

/-- **C165** (received, partial).  With `Trace` set, the messages about a connection determine the packets that were received: their spans,
and the keys and values of their annotations, in order. -/
theorem trace_determines_partial (p q : Nat → Bool) (client : Bytes) (debug debug' : Bool) : ∀ (rs rs' : List Received),
    connMsgs p client debug true rs = connMsgs q client debug' true rs' → List.Forall₂ ReceivedAlike rs rs'
  | [], [], _ => .nil
  | [], r :: rs, h => by simp [connMsgs, packetMsgs] at h
  | r :: rs, [], h => by simp [connMsgs, packetMsgs] at h
  | r :: rs, r' :: rs', h => by
    have e : ∀ p debug (x : Received) xs, connMsgs p client debug true (x :: xs) =
        receivedMsg client x.id x.anns.length :: (annotationMsgs p client x.addr 0 x.anns ++ connMsgs p client debug true xs) := by
      intro p debug x xs
      simp [connMsgs, packetMsgs]
    rw [e, e, List.cons.injEq] at h
    obtain ⟨h1, h2⟩ := receivedMsg_inj h.1
    obtain ⟨h3, h4⟩ := List.append_inj h.2 (by rw [annotationMsgs_length, annotationMsgs_length, h2])
    exact .cons ⟨h1, annotationMsgs_inj h3⟩ (trace_determines_partial p q client debug debug' rs rs' h4)

/-- **C165** (the switches).  With only `Debug` there is one message for each packet, with its span and the number of annotations; without
both there is none. -/
theorem debug_messages (p : Nat → Bool) (client : Bytes) (rs : List Received) :
    connMsgs p client true false rs = rs.map (fun r => receivedMsg client r.id r.anns.length) ∧ connMsgs p client false false rs = [] := by
  constructor <;> induction rs with
  | nil => rfl
  | cons r rs ih =>
    simp only [connMsgs] at ih
    simp [connMsgs, packetMsgs, ih]

/-- **C165** (sent).  With `Debug` set, a call of `RemoteCollector.Collect` that returns nil logs exactly one message that the span was sent, at
the end; one that fails logs none. -/
theorem sent_logged (id : SpanID) (connected first dial second : Bool) :
    let r := retryMsgs true id connected first dial second
    r.1.count (b!"Sent " ++ id.toText) = (if r.2 then 1 else 0) ∧ (r.2 = true → r.1.getLast? = some (b!"Sent " ++ id.toText)) := by
  have h1 : (b!"Sending " ++ id.toText) ≠ (b!"Sent " ++ id.toText) := fun h => absurd (congrArg (·[3]?) h) (by simp)
  have h2 : (b!"Reconnecting to send " ++ id.toText) ≠ (b!"Sent " ++ id.toText) := fun h => absurd (congrArg (·[0]?) h) (by simp)
  cases connected <;> cases first <;> cases dial <;> cases second <;>
    simp [retryMsgs, writeMsgs, List.count_cons, h1, h2]

/-- A connection with two packets. -/
example : connMsgs (fun _ => false) b!"1.2.3.4:5" false true [⟨0xc000012340, ⟨1, 2, 0⟩, [⟨b!"k", some b!"v"⟩]⟩, ⟨0xc000012348, ⟨1, 3, 2⟩, []⟩] =
    [b!"Client 1.2.3.4:5: received span 0000000000000001/0000000000000002 with 1 annotations",
     b!"Client 1.2.3.4:5: span 0xc000012340: annotation 0: k=\"v\"",
     b!"Client 1.2.3.4:5: received span 0000000000000001/0000000000000003/0000000000000002 with 0 annotations"] := by decide +kernel

/-- A call that is repeated. -/
example : retryMsgs true ⟨1, 2, 0⟩ true false true true =
    ([b!"Sending 0000000000000001/0000000000000002", b!"Reconnecting to send 0000000000000001/0000000000000002",
      b!"Sending 0000000000000001/0000000000000002", b!"Sent 0000000000000001/0000000000000002"], true) := by decide +kernel

end Appdash
