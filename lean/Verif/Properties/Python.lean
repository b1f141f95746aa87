import Verif.Proofs.Python
import Verif.Proofs.PythonTw

/-!
# The Python client: wire format, span IDs, collectors (C75-C78)
-/

namespace Appdash.Py
open Spec

/-! ## C75 -/

/-- **C75**.  The Python client writes, for every span ID and every list of annotations, the same bytes as the Go client does for
the same ID and annotations. -/
theorem python_bytes (p : Packet) : msg p = frameOf (goCall p) := msg_eq p

/-- **C75**.  If no `send` happens while another packet has been sent in part, then the Go server receives exactly the packets
whose `collect` returned, in that order, however the socket splits the sends, whatever number of threads there are, and whatever
is cut off at the end. -/
theorem python_packets_received (ops : List SockOp) (ho : Orderly {} ops) (hfit : ∀ t p, SockOp.collect t p ∈ ops → Fits p) :
    (handleConn acceptAll (Sock.run {} ops).stream).1 = (returned (Sock.run {} ops)).map goCall ∧
      ((handleConn acceptAll (Sock.run {} ops).stream).2 = .closed ∨
        (handleConn acceptAll (Sock.run {} ops).stream).2 = .readError) := by
  obtain ⟨part, hs⟩ := SI.init.run ops ho
  obtain ⟨hp1, hp2⟩ := run_packets (P := Fits) (s := {}) ops hfit (by simp) (by simp)
  have hds : ∀ d ∈ (returned (Sock.run {} ops)).map goCall, WithinLimit d := by
    intro d hd
    obtain ⟨p, hp, rfl⟩ := List.mem_map.1 hd
    exact (fits_iff p).1 (hp2 (p, .returned) (returned_mem hp))
  rw [hs.stream, handleConn_shape _ hds]
  have frag : ∀ p, Fits p → ∀ k, k < (msg p).length → part = (msg p).take k →
      (handleLoop acceptAll (part.length + 1) ((returned (Sock.run {} ops)).map goCall) part).1 =
        (returned (Sock.run {} ops)).map goCall ∧
      ((handleLoop acceptAll (part.length + 1) ((returned (Sock.run {} ops)).map goCall) part).2 = .closed ∨
        (handleLoop acceptAll (part.length + 1) ((returned (Sock.run {} ops)).map goCall) part).2 = .readError) := by
    intro p hf k hk e
    have h1 : part <+: frameOf (goCall p) := by rw [← msg_eq, e]; exact List.take_prefix ..
    have h2 : part ≠ frameOf (goCall p) := by
      intro h
      have : part.length = (msg p).length := by rw [h, msg_eq]
      rw [e, List.length_take] at this
      omega
    rcases handleLoop_part (rejects := acceptAll) (goCall p) ((fits_iff p).1 hf) part h1 h2 part.length
      ((returned (Sock.run {} ops)).map goCall) with h | h <;> simp [h]
  rcases hs.part with ⟨rfl, -, -⟩ | ⟨t, c, hc, rfl, -, -⟩ | ⟨p, k, hp, rfl, -, hk⟩
  · rw [handleLoop_nil]; simp
  · obtain ⟨e1, e2⟩ := hs.buf t c hc
    exact frag c.packet (hp1 t c hc) c.totalSent (by rw [← e1]; exact e2) (by rw [← e1])
  · exact frag p (hp2 (p, .raised k) hp) k hk rfl

/-- **C75**.  A program with one thread, as long as no send fails, is such a case. -/
theorem python_one_thread (t : Nat) (ops : List SockOp) (ht : ∀ op ∈ ops, op.thread = t) (hf : ∀ op ∈ ops, op.fails = false)
    (hfit : ∀ t p, SockOp.collect t p ∈ ops → Fits p) :
    (handleConn acceptAll (Sock.run {} ops).stream).1 = (returned (Sock.run {} ops)).map goCall :=
  (python_packets_received ops (orderly_one_thread t ops ht hf {} (by simp) (by simp) (by simp)) hfit).1

/-- **C75**.  Any number of threads is such a case if every send takes the whole packet. -/
theorem python_whole_sends (ops : List SockOp) (hs : ∀ t n u p, SockOp.send t n ∈ ops → SockOp.collect u p ∈ ops → (msg p).length ≤ n)
    (hfit : ∀ t p, SockOp.collect t p ∈ ops → Fits p) :
    (handleConn acceptAll (Sock.run {} ops).stream).1 = (returned (Sock.run {} ops)).map goCall := by
  have : ∃ L, (∀ t p, SockOp.collect t p ∈ ops → (msg p).length ≤ L) ∧ ∀ t n, SockOp.send t n ∈ ops → L ≤ n := by
    refine ⟨(ops.map fun op => match op with | .collect _ p => (msg p).length | _ => 0).foldr max 0, ?_, ?_⟩
    · clear hs hfit
      intro t p h
      induction ops with
      | nil => cases h
      | cons op ops ih =>
        rw [List.map_cons, List.foldr_cons]
        rcases List.mem_cons.1 h with rfl | h
        · exact Nat.le_max_left ..
        · exact (ih h).trans (Nat.le_max_right ..)
    · intro t n h
      have key : ∀ ops' : List SockOp, (∀ u p, SockOp.collect u p ∈ ops' → (msg p).length ≤ n) →
          (ops'.map fun op => match op with | .collect _ p => (msg p).length | _ => 0).foldr max 0 ≤ n := by
        intro ops' h'
        induction ops' with
        | nil => simp
        | cons op ops' ih =>
          rw [List.map_cons, List.foldr_cons]
          refine Nat.max_le.2 ⟨?_, ih fun u p hm => h' u p (List.mem_cons_of_mem _ hm)⟩
          cases op with
          | collect u p => exact h' u p (List.mem_cons_self ..)
          | send => simp
          | error => simp
      exact key ops fun u p hm => hs t n u p h hm
  obtain ⟨L, h1, h2⟩ := this
  exact (python_packets_received ops (orderly_whole ops L h1 h2 {} (by simp) (by simp)) hfit).1

/-- Two packets sent in pieces, and a third one cut off. -/
def pieces : List SockOp :=
  [.collect 7 (⟨1, 2, 0⟩, [⟨b!"Name", b!"root"⟩, ⟨b!"_schema:name", b!""⟩]), .send 7 1, .send 7 30, .send 7 1000,
   .collect 7 (⟨1, 3, 2⟩, []), .send 7 29, .send 7 1, .collect 7 (⟨1, 4, 2⟩, []), .send 7 5]

example : (∀ op ∈ pieces, op.thread = 7) ∧ (∀ op ∈ pieces, op.fails = false) ∧
    returned (Sock.run {} pieces) = [(⟨1, 2, 0⟩, [⟨b!"Name", b!"root"⟩, ⟨b!"_schema:name", b!""⟩]), (⟨1, 3, 2⟩, [])] := by decide

/-- Three threads at once. -/
example : (handleConn acceptAll (Sock.run {} [.collect 0 (⟨1, 2, 0⟩, []), .collect 1 (⟨3, 4, 0⟩, []), .collect 2 (⟨5, 6, 0⟩, []),
    .send 2 100, .error 0, .send 1 100]).stream).1 = [(⟨5, 6, 0⟩, []), (⟨3, 4, 0⟩, [])] := by decide

/-! ## C76 -/

/-- The first half of C76: every packet whose `collect` returned is received. -/
def ReturnedIsReceived : Prop := ∀ ops, (∀ t p, SockOp.collect t p ∈ ops → Fits p) →
  ∀ p ∈ returned (Sock.run {} ops), goCall p ∈ (handleConn acceptAll (Sock.run {} ops).stream).1

/-- The second half of C76: every packet received was passed to `collect`. -/
def ReceivedWasCollected : Prop := ∀ ops, (∀ t p, SockOp.collect t p ∈ ops → Fits p) →
  ∀ d ∈ (handleConn acceptAll (Sock.run {} ops).stream).1, ∃ t p, SockOp.collect t p ∈ ops ∧ d = goCall p

/-- After a timeout in the middle of a packet, the application goes on to use the collector. -/
def afterTimeout : List SockOp :=
  [.collect 0 (⟨1, 2, 0⟩, []), .send 0 1, .error 0, .collect 0 (⟨1, 3, 2⟩, []), .send 0 100]

/-- Two threads whose sends alternate. -/
def alternating : List SockOp :=
  [.collect 0 (⟨1, 2, 0⟩, []), .collect 1 (⟨1, 3, 2⟩, []), .send 0 1, .send 1 100, .send 0 100]

/-- C76 is false of the code: `collect` returns although the connection is broken, with one thread after a timeout, and with
two threads without any error. -/
theorem returned_not_received : ¬ ReturnedIsReceived := by
  intro h
  have := h afterTimeout (by intro t p hm; simp only [afterTimeout, List.mem_cons, List.not_mem_nil, or_false] at hm
                             rcases hm with h | h | h | h | h <;> cases h <;> decide) (⟨1, 3, 2⟩, []) (by decide)
  exact absurd this (by decide)

theorem returned_not_received_threads : returned (Sock.run {} alternating) = [(⟨1, 3, 2⟩, []), (⟨1, 2, 0⟩, [])] ∧
    (∀ op ∈ alternating, op.fails = false) ∧ (handleConn acceptAll (Sock.run {} alternating).stream).1 = [] := by decide

/-- A packet is cut off in the middle of a value by a timeout; the following packets complete it. -/
def spliced : List SockOp :=
  [.collect 0 (⟨1, 2, 0⟩, [⟨b!"a", b!"123456789012345678901234567890"⟩]), .send 0 36, .error 0, .collect 0 (⟨1, 3, 2⟩, []), .send 0 100,
   .collect 0 (⟨1, 4, 2⟩, [⟨b!"a", b!"bbbbbbbb"⟩]), .send 0 100]

/-- C76 is false of the code: the server receives a packet that was never collected. -/
theorem received_not_collected : ¬ ReceivedWasCollected := by
  intro h
  obtain ⟨t, p, hm, hp⟩ := h spliced (by intro t p hm; simp only [spliced, List.mem_cons, List.not_mem_nil, or_false] at hm
                                         rcases hm with h | h | h | h | h | h | h <;> cases h <;> decide)
    (⟨1, 2, 0⟩, [⟨b!"a", some (msg (⟨1, 3, 2⟩, []))⟩]) (by decide)
  simp only [spliced, List.mem_cons, List.not_mem_nil, or_false] at hm
  rcases hm with h | h | h | h | h | h | h <;> cases h <;> exact absurd hp (by decide)

/-- **C76**, the part that holds: whatever happens afterwards (failed sends, other threads), everything whose `collect` returned
during an orderly beginning is received, first. -/
theorem received_before_partial (ops more : List SockOp) (ho : Orderly {} ops) (hfit : ∀ t p, SockOp.collect t p ∈ ops → Fits p) :
    (returned (Sock.run {} ops)).map goCall <+: (handleConn acceptAll (Sock.run {} (ops ++ more)).stream).1 := by
  obtain ⟨part, hs⟩ := SI.init.run ops ho
  obtain ⟨-, hp2⟩ := run_packets (P := Fits) (s := {}) ops hfit (by simp) (by simp)
  have hds : ∀ d ∈ (returned (Sock.run {} ops)).map goCall, WithinLimit d := by
    intro d hd
    obtain ⟨p, hp, rfl⟩ := List.mem_map.1 hd
    exact (fits_iff p).1 (hp2 (p, .returned) (returned_mem hp))
  obtain ⟨x, hx⟩ := run_stream (Sock.run {} ops) more
  rw [run_append, hx, hs.stream, List.append_assoc, handleConn_shape _ hds]
  exact handleLoop_prefix _ _ _

/-- The hypotheses are met by the beginning of a run that breaks later. -/
example : returned (Sock.run {} [.collect 0 (⟨1, 9, 0⟩, []), .send 0 1, .send 0 100]) = [(⟨1, 9, 0⟩, [])] ∧
    (handleConn acceptAll (Sock.run {} ([.collect 0 (⟨1, 9, 0⟩, []), .send 0 1, .send 0 100] ++ afterTimeout)).stream).1 =
      [(⟨1, 9, 0⟩, [])] := by decide

example : Orderly {} [.collect 0 (⟨1, 9, 0⟩, []), .send 0 1, .send 0 100] :=
  orderly_one_thread 0 _ (by decide) (by decide) {} (by simp) (by simp) (by simp)

/-! ## C77 -/

/-- **C77**.  Go's `ParseSpanID` reads the text of every Python span ID as that ID. -/
theorem python_span_id_text (id : SpanID) : parseSpanID (str id) = .ok id := parseSpanID_str id

/-- **C77**.  A Python child of a Go span, and a Go child of a Python span, are in the same trace as their parent and point to it;
Python roots are like Go roots. -/
theorem python_child (parent : SpanID) (g : ID) :
    (childSpanID parent g).trace = parent.trace ∧ (childSpanID parent g).parent = parent.span ∧
      childSpanID parent g = newSpanID parent g ∧ ∀ g1 g2, rootSpanID g1 g2 = newRootSpanID g1 g2 := ⟨rfl, rfl, rfl, fun _ _ => rfl⟩

/-- Unlike Go's text, Python's pads only to an even number of digits. -/
example : str ⟨0xabc, 5, 0⟩ = b!"0abc/05" ∧ str ⟨1, 0xffffffffffffffff, 0x10⟩ = b!"01/ffffffffffffffff/10" := by decide

/-! ## C78 -/

/-- C78: a packet collected by a factory has been written to one of its connections or is still pending. -/
def NothingLost : Prop := ∀ ops f p, (f, p) ∈ (Tw.run {} ops).calls → p ∈ writtenBy (Tw.run {} ops) f ∨ p ∈ pendingOf (Tw.run {} ops) f

/-- C78: a factory writes only packets that it collected. -/
def OnlyOwn : Prop := ∀ ops f, ∀ p ∈ writtenBy (Tw.run {} ops) f, p ∈ collectedBy (Tw.run {} ops) f

/-- C78: packets are written at most as often as they were collected. -/
def WrittenOnce : Prop :=
  ∀ ops p, ((Tw.run {} ops).protos.flatMap Proto.written).count p ≤ ((Tw.run {} ops).calls.map Prod.snd).count p

/-- C78 is false of the code: a packet that is pending when the connection is lost is thrown away by the next flush. -/
theorem twisted_loses : ¬ NothingLost := by
  intro h
  have := h [.newFactory, .connect 0, .lost 0, .collect 0 (⟨1, 2, 0⟩, []), .flush 0] 0 (⟨1, 2, 0⟩, []) (by decide)
  exact absurd this (by decide)

/-- C78 is false of the code: factories share one list of pending packets until they first flush. -/
theorem twisted_shares : ¬ OnlyOwn := by
  intro h
  have := h [.newFactory, .newFactory, .collect 0 (⟨1, 2, 0⟩, []), .connect 1, .flush 1] 1 (⟨1, 2, 0⟩, []) (by decide)
  exact absurd this (by decide)

/-- C78 is false of the code: the shared list is never cleared, so a later factory writes the packets again. -/
theorem twisted_repeats : ¬ WrittenOnce := by
  intro h
  have := h [.newFactory, .collect 0 (⟨1, 2, 0⟩, []), .connect 0, .flush 0, .newFactory, .connect 1, .flush 1] (⟨1, 2, 0⟩, [])
  exact absurd this (by decide)

/-- **C78**, the part that holds: nothing is invented. -/
theorem twisted_known_partial (ops : List TwOp) : ∀ q ∈ (Tw.run {} ops).protos, ∀ p ∈ q.written, ∃ f, (f, p) ∈ (Tw.run {} ops).calls :=
  (TwKnown.init.run ops).written

/-- **C78**, the part that holds: nothing is lost if flushes happen only while the factory's connection is up. -/
theorem twisted_kept_partial (ops : List TwOp) (hu : FlushesUp {} ops) (f : Nat) (p : Packet) (h : (f, p) ∈ (Tw.run {} ops).calls) :
    p ∈ writtenBy (Tw.run {} ops) f ∨ p ∈ pendingOf (Tw.run {} ops) f := by
  obtain ⟨F, hF, hw⟩ := (TwKept.init.run ops hu).kept f p h
  exact hw.imp id fun h => by simpa [pendingOf, hF] using h

/-- **C78**, the part that holds: in a process with one factory, if flushes happen only while the connection is up, the packets
collected are exactly those written, followed by those pending, each once and in order. -/
theorem twisted_one_partial (ops : List TwOp) (hn : TwOp.newFactory ∉ ops) (hu : FlushesUp (Tw.step {} .newFactory) ops) :
    collectedBy (Tw.run {} (.newFactory :: ops)) 0 =
      writtenBy (Tw.run {} (.newFactory :: ops)) 0 ++ pendingOf (Tw.run {} (.newFactory :: ops)) 0 := by
  have h0 : TwOne (Tw.step {} .newFactory) {} := ⟨rfl, by simp [Tw.step], by simp [Tw.step], by simp, rfl⟩
  obtain ⟨F, h⟩ := h0.run ops hn hu
  exact h.collected

/-- A run with a reconnection that meets the conditions. -/
def twRun : List TwOp :=
  [.collect 0 (⟨1, 2, 0⟩, []), .connect 0, .flush 0, .collect 0 (⟨1, 3, 2⟩, []), .lost 0, .connect 0, .collect 0 (⟨1, 4, 2⟩, []), .flush 0,
   .collect 0 (⟨1, 5, 2⟩, [])]

example : TwOp.newFactory ∉ twRun ∧ FlushesUp (Tw.step {} .newFactory) twRun ∧
    writtenBy (Tw.run {} (.newFactory :: twRun)) 0 = [(⟨1, 2, 0⟩, []), (⟨1, 3, 2⟩, []), (⟨1, 4, 2⟩, [])] ∧
    pendingOf (Tw.run {} (.newFactory :: twRun)) 0 = [(⟨1, 5, 2⟩, [])] := by
  refine ⟨by decide, ?_, by decide, by decide⟩
  refine ⟨by simp, by simp, ?_, by simp, by simp, by simp, by simp, ?_, by simp, trivial⟩
  · rintro f ⟨⟩
    exact ⟨⟨none, some 0⟩, 0, ⟨0, true, []⟩, by decide⟩
  · rintro f ⟨⟩
    exact ⟨⟨some [(⟨1, 3, 2⟩, []), (⟨1, 4, 2⟩, [])], some 1⟩, 1, ⟨0, true, []⟩, by decide⟩

end Appdash.Py
