import Verif.Proofs.Remote
import Verif.Properties.Wire

/-! # Properties C10, C12: the remote collector -/

namespace Appdash

/-! ## C12 -/

/-- C12: whatever the network does and however callers interleave, at every moment (also in the middle of a call) every
connection has carried complete frames of collected packets followed by at most one incomplete frame. -/
theorem remote_whole_frames (c : Mutex.Config remoteMachine) (hc : Mutex.Reachable remoteMachine {} c)
    (k : Conn) (hk : k ∈ c.shared.conns) :
    ∃ ds part, k.bytes = sent ds ++ part ∧ (∀ d ∈ ds, Called c d) ∧
      (part = [] ∨ ∃ d, Called c d ∧ part <+: frameOf d) := by
  obtain ⟨part, h1, h2, h3⟩ := remote_shape hc k hk
  exact ⟨k.log, part, h1, h3, h2⟩

/-- C12: so, while all collected packets are within the size limit, the server behind any connection never decodes
anything but packets that were collected, whatever part of the bytes has arrived so far. -/
theorem server_never_mixes (c : Mutex.Config remoteMachine) (hc : Mutex.Reachable remoteMachine {} c)
    (hlim : ∀ d, Called c d → WithinLimit d) (k : Conn) (hk : k ∈ c.shared.conns) (n : Nat)
    (rejects : List Delivery → Delivery → Bool) :
    (∀ d ∈ (handleConn rejects (k.bytes.take n)).1, Called c d) ∧ (handleConn rejects (k.bytes.take n)).2 ≠ .panicked := by
  obtain ⟨part, h1, h2, h3⟩ := remote_shape hc k hk
  obtain ⟨ds, hds, hp⟩ : ∃ ds, (∀ d ∈ ds, Called c d) ∧ k.bytes <+: sent ds := by
    rcases h2 with rfl | ⟨d', hd', hp⟩
    · exact ⟨k.log, h3, by rw [h1, List.append_nil]; exact List.prefix_refl _⟩
    · refine ⟨k.log ++ [d'], ?_, ?_⟩
      · intro d hd
        simp only [List.mem_append, List.mem_singleton] at hd
        rcases hd with hd | rfl
        · exact h3 d hd
        · exact hd'
      · rw [h1]
        simp only [sent, List.flatMap_append, List.flatMap_cons, List.flatMap_nil, List.append_nil]
        exact (List.prefix_append_right_inj _).2 hp
  have hw : ∀ d ∈ ds, WithinLimit d := fun d hd => hlim d (hds d hd)
  have e := List.prefix_iff_eq_take.1 ((List.take_prefix n _).trans hp)
  rw [e]
  exact ⟨fun d hd => hds d ((truncated_stream_rejecting ds hw _ rejects).subset hd),
    server_survives_own_clients_partial rejects ds hw _⟩

/-- C12: calls are performed one at a time, each from the state the previous one left. -/
theorem remote_serialised (c : Mutex.Config remoteMachine) (hc : Mutex.Reachable remoteMachine {} c)
    (hfree : c.holder = none) :
    Mutex.Sequential (fun call => Mutex.Runs remoteMachine (remoteMachine.start call)) {} c.log c.shared :=
  (Mutex.serialised (fun _ _ _ _ h => h) hc).1 hfree

/-- C12: each `Collect` dials at most once and calls `WriteMsg` at most twice. -/
theorem remote_attempts (d : Delivery) (r r' : Remote) (ok : Bool)
    (h : Mutex.Runs remoteMachine (remoteMachine.start (.collect d)) r r' ok) :
    r'.dials ≤ r.dials + 1 ∧ r'.writes ≤ r.writes + 2 := remote_counts h

/-- C12: when `Collect` returns nil, the last bytes on the newest connection are its whole frame. -/
theorem remote_nil_means_written (c : Mutex.Config remoteMachine) (hc : Mutex.Reachable remoteMachine {} c)
    (hfree : c.holder = none) (i : Nat) (d : Delivery) (hlast : c.log.getLast? = some (i, .collect d, true)) :
    ∃ k, c.shared.conns.getLast? = some k ∧ frameOf d <:+ k.bytes :=
  ((remote_inv hc).1 hfree).2 i d hlast

/-! ## C10 -/

/-- The full statement of C10: every packet whose `Collect` returned nil is received by the server of some connection,
if that connection delivers all bytes written to it. -/
def EveryAcceptedArrives : Prop :=
  ∀ c : Mutex.Config remoteMachine, Mutex.Reachable remoteMachine {} c → c.holder = none →
    ∀ d ∈ accepted c.log, ∃ k ∈ c.shared.conns, d ∈ (handleConn acceptAll k.bytes).1

/-- A packet over the limit ends the connection: it does not arrive and neither does anything after it. -/
theorem oversize_kills_connection (ds ds' : List Delivery) (d : Delivery) (hds : ∀ d ∈ ds, WithinLimit d)
    (hd : ¬ WithinLimit d) (hmax : (marshal (newCollectPacket d.1 d.2)).length < 2 ^ 63) :
    handleConn acceptAll (sent (ds ++ d :: ds')) = (ds, .readError) := by
  have e : sent (ds ++ d :: ds') = sent ds ++ (frameOf d ++ sent ds') := by simp [sent]
  rw [e, handleConn_shape ds hds]
  have hr : readMsg (frameOf d ++ sent ds') = .err :=
    readMsg_oversize _ _ (by omega) (by unfold WithinLimit at hd; simp only [maxMessageSize]; omega)
  simp [handleLoop, hr]

/-- One annotation with a value of just over 1 MiB is over the limit. -/
theorem big_packet (v : Bytes) (hv : v.length = 1048577) :
    (marshal (newCollectPacket ⟨1, 1, 0⟩ [⟨[], some v⟩])).length = 1048614 := by
  obtain ⟨n, hn⟩ : ∃ n, n = 1048577 := ⟨_, rfl⟩
  rw [← hn] at hv
  have h1 : (encVarint n).length = 3 := by subst hn; decide
  have h2 : (encSpanID (SpanID.wire ⟨1, 1, 0⟩)).length = 29 := by decide
  have h3 : (encTag 5 3 ++ encTag 6 2 ++ encVarint 0 ++ encTag 7 2 ++ encTag 5 4).length = 5 := by decide
  simp only [List.length_append] at h3
  simp only [newCollectPacket, marshal, annotationsWire, List.map_cons, List.map_nil, List.flatMap_cons,
    List.flatMap_nil, encAnnotation, encOpt, encBytes, List.length_append, List.length_nil, hv, h1, h2]
  omega

/-- C10 is false of the code: nothing checks the size before sending, and the server refuses the packet. -/
theorem oversize_lost : ¬ EveryAcceptedArrives := by
  intro h
  obtain ⟨bigDelivery, hlen⟩ : ∃ d : Delivery, (marshal (newCollectPacket d.1 d.2)).length = 1048614 :=
    ⟨(⟨1, 1, 0⟩, [⟨[], some (List.replicate 1048577 0)⟩]), big_packet _ List.length_replicate⟩
  have r0 := Mutex.Reachable.init (M := remoteMachine) (s := {})
  have r1 := r0.step (.call _ 1 (.collect bigDelivery) rfl)
  have r2 := r1.step (.lock _ 1 _ rfl rfl)
  have r3 := r2.step (.micro _ 1 _ _ _ _ rfl (RemoteStep.checkNone _ bigDelivery rfl))
  have r4 := r3.step (.micro _ 1 _ _ _ _ rfl (RemoteStep.disconnect _ bigDelivery))
  have r5 := r4.step (.micro _ 1 _ _ _ _ rfl (RemoteStep.dialOk _ bigDelivery))
  have r6 := r5.step (.micro _ 1 _ _ _ _ rfl (RemoteStep.len2Ok _ bigDelivery 0 none _ rfl))
  have r7 := r6.step (.finish _ 1 _ _ _ _ rfl (RemoteStep.msg2Ok _ bigDelivery 0 none _ rfl))
  obtain ⟨k, hk, hd⟩ := h _ r7 rfl bigDelivery (List.mem_singleton.2 rfl)
  have hk : k = { bytes := frameOf bigDelivery, dead := false, log := [bigDelivery] } := List.mem_singleton.1 hk
  have hx := oversize_kills_connection [] [] bigDelivery (by simp) (by unfold WithinLimit; omega) (by omega)
  have e : sent ([] ++ [bigDelivery]) = frameOf bigDelivery := by simp [sent]
  rw [e] at hx
  rw [hk, hx] at hd
  cases hd

/-- C10, the part that holds: if every collected packet is within the limit, the packets whose `Collect` returned nil
are received, in order and without loss, by the servers of the connections (in the order they were dialled).  Only
packets whose `Collect` failed or was retried can arrive besides. -/
theorem accepted_arrive_partial (c : Mutex.Config remoteMachine) (hc : Mutex.Reachable remoteMachine {} c)
    (hfree : c.holder = none) (hlim : ∀ d ∈ attempted c.log, WithinLimit d) :
    (accepted c.log).Sublist (c.shared.conns.flatMap fun k => (handleConn acceptAll k.bytes).1) := by
  obtain ⟨⟨h1, h2, -⟩, -⟩ := (remote_inv hc).1 hfree
  rw [← h2]
  clear h2
  revert h1
  generalize c.shared.conns = conns
  intro h1
  induction conns with
  | nil => simp
  | cons k ks ih =>
    rw [List.flatMap_cons, List.flatMap_cons]
    refine List.Sublist.append ?_ (ih (fun c hc => h1 c (by simp [hc])))
    obtain ⟨part, e1, -, -, e4⟩ := h1 k (by simp)
    rw [e1, handleConn_shape _ (fun d hd => hlim d (e4 d hd))]
    exact (handleLoop_rejects (rejects := acceptAll) _ _ _).2.2.sublist

/-- A history in which the first connection breaks in the middle of a retried packet: the first write of the second
`Collect` fails after one byte, and the packet is sent again on a new connection. -/
theorem broken_connection_run : ∃ c : Mutex.Config remoteMachine, Mutex.Reachable remoteMachine {} c ∧ c.holder = none ∧
    accepted c.log = [(⟨1, 2, 0⟩, []), (⟨1, 3, 2⟩, [])] ∧ (∀ d ∈ attempted c.log, WithinLimit d) ∧
    c.shared.conns.map (fun k => (handleConn acceptAll k.bytes).1) = [[(⟨1, 2, 0⟩, [])], [(⟨1, 3, 2⟩, [])]] := by
  have r0 := Mutex.Reachable.init (M := remoteMachine) (s := {})
  have r1 := r0.step (.call _ 1 (.collect (⟨1, 2, 0⟩, [])) rfl)
  have r2 := r1.step (.lock _ 1 _ rfl rfl)
  have r3 := r2.step (.micro _ 1 _ _ _ _ rfl (RemoteStep.checkNone _ (⟨1, 2, 0⟩, []) rfl))
  have r4 := r3.step (.micro _ 1 _ _ _ _ rfl (RemoteStep.disconnect _ (⟨1, 2, 0⟩, [])))
  have r5 := r4.step (.micro _ 1 _ _ _ _ rfl (RemoteStep.dialOk _ (⟨1, 2, 0⟩, [])))
  have r6 := r5.step (.micro _ 1 _ _ _ _ rfl (RemoteStep.len2Ok _ (⟨1, 2, 0⟩, []) 0 none _ rfl))
  have q0 := r6.step (.finish _ 1 _ _ _ _ rfl (RemoteStep.msg2Ok _ (⟨1, 2, 0⟩, []) 0 none _ rfl))
  have q1 := q0.step (.call _ 2 (.collect (⟨1, 3, 2⟩, [])) rfl)
  have q2 := q1.step (.lock _ 2 _ rfl rfl)
  have q3 := q2.step (.micro _ 2 _ _ _ _ rfl (RemoteStep.checkSome _ (⟨1, 3, 2⟩, []) 0 rfl))
  have q4 := q3.step (.micro _ 2 _ _ _ _ rfl (RemoteStep.len1Ok _ (⟨1, 3, 2⟩, []) 0 none _ rfl))
  have q5 := q4.step (.micro _ 2 _ _ _ _ rfl (RemoteStep.msg1Err _ (⟨1, 3, 2⟩, []) 0 (some 1) _ rfl))
  have q6 := q5.step (.micro _ 2 _ _ _ _ rfl (RemoteStep.disconnect _ (⟨1, 3, 2⟩, [])))
  have q7 := q6.step (.micro _ 2 _ _ _ _ rfl (RemoteStep.dialOk _ (⟨1, 3, 2⟩, [])))
  have q8 := q7.step (.micro _ 2 _ _ _ _ rfl (RemoteStep.len2Ok _ (⟨1, 3, 2⟩, []) 1 none _ rfl))
  have q9 := q8.step (.finish _ 2 _ _ _ _ rfl (RemoteStep.msg2Ok _ (⟨1, 3, 2⟩, []) 1 none _ rfl))
  exact ⟨_, q9, rfl, by decide, by decide, by decide⟩

end Appdash
