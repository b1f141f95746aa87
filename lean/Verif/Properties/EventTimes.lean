import Verif.Model.Times

/-!
# The times of the library's events

C42, C49, C51: which annotations of the library's events the times of spans are taken from.
-/

namespace Appdash

/-- The keys under which the times of the library's timespan events are recorded, and values of these types: two times, and anything else. -/
inductive TimedEvent : EventType → GVal → (startKey endKey : Bytes) → GoTime → GoTime → Prop
  | timespanEvent (s e : GoTime) : TimedEvent timespanEvent (.struct [.scalar (.time s), .scalar (.time e)]) b!"S" b!"E" s e
  | timespan (s e : GoTime) : TimedEvent timespan (.struct [.scalar (.time s), .scalar (.time e)]) b!"Span.Start" b!"Span.End" s e
  | client (req resp : GVal) (s e : GoTime) :
    TimedEvent clientEvent (.struct [req, resp, .scalar (.time s), .scalar (.time e)]) b!"Client.Send" b!"Client.Recv" s e
  | server (req resp route user : GVal) (s e : GoTime) :
    TimedEvent serverEvent (.struct [req, resp, route, user, .scalar (.time s), .scalar (.time e)]) b!"Server.Recv" b!"Server.Send" s e
  | sql (text tag : GVal) (s e : GoTime) :
    TimedEvent sqlEvent (.struct [text, tag, .scalar (.time s), .scalar (.time e)]) b!"ClientSend" b!"ClientRecv" s e

/-- Properties C42, C49 and C51.  The time span of an event of the library goes from the time that it records under the one key to the time that it
records under the other. -/
theorem library_event_times (E : EventType) (v : GVal) (k₁ k₂ : Bytes) (s e : GoTime) (h : TimedEvent E v k₁ k₂ s e) :
    E.span v = some (s, e) ∧ ∀ as, Marshals E v (.ok as) → ⟨k₁, some (formatTime s)⟩ ∈ as ∧ ⟨k₂, some (formatTime e)⟩ ∈ as := by
  refine ⟨by cases h <;> rfl, ?_⟩
  intro as hm
  have key : E.marshaler = none ∧ (k₁, formatTime s) ∈ flatten E.type [] v ∧ (k₂, formatTime e) ∈ flatten E.type [] v := by
    cases h <;>
      refine ⟨rfl, ?_, ?_⟩ <;>
      simp [timespanEvent, timespan, clientEvent, serverEvent, sqlEvent, flatten, flattenFields, tTime, nest, Scalar.text]
  obtain ⟨h0, h1, h2⟩ := key
  simp only [Marshals, h0] at hm
  obtain ⟨kvs, hp, has⟩ := hm
  simp only [Except.ok.injEq] at has
  subst has
  exact ⟨List.mem_append_left _ (List.mem_map.2 ⟨_, hp.mem_iff.2 h1, rfl⟩), List.mem_append_left _ (List.mem_map.2 ⟨_, hp.mem_iff.2 h2, rfl⟩)⟩

/-- Properties C42, C49 and C51.  The other events of the library have no times. -/
theorem library_untimed (E : EventType) (h : E = spanNameEvent ∨ E = logEvent ∨ E = msgEvent) (v : GVal) : E.span v = none := by
  rcases h with rfl | rfl | rfl <;> rfl

/-- A server event and a concrete value. -/
example : TimedEvent serverEvent
    (.struct [.struct [], .struct [], .scalar (.string b!"r"), .scalar (.string b!"u"), .scalar (.time ⟨2016, 7, 1, 10, 20, 30, 0, 0⟩),
      .scalar (.time ⟨2016, 7, 1, 10, 20, 31, 0, 0⟩)]) b!"Server.Recv" b!"Server.Send" ⟨2016, 7, 1, 10, 20, 30, 0, 0⟩ ⟨2016, 7, 1, 10, 20, 31, 0, 0⟩ :=
  .server _ _ _ _ _ _

end Appdash
