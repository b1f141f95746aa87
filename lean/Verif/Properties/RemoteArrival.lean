import Verif.Proofs.RemoteArrival
import Verif.Properties.Remote

/-!
# C161: each call of a remote collector arrives at most twice, and in order
-/

namespace Appdash

/-- **C161**.  Many goroutines call one remote collector, the network refuses dials and breaks connections as it likes, and the packets are
within the server's limit.  The servers of the connections, in the order in which these were dialled, are given the packets of the calls in the
order of the calls: each at most twice, and at least once if the call returned nil. -/
theorem packets_arrive_in_order (c : Mutex.Config remoteMachine) (hc : Mutex.Reachable remoteMachine {} c) (hfree : c.holder = none)
    (hlim : ∀ d ∈ attempted c.log, WithinLimit d) : Arrived c.log (received c.shared) :=
  ((arrival_inv hc).1 hfree).2 hlim

/-- **C161** (counting).  Of any set of packets, at most two arrive for each call with one of them, and at least one for each call that
returned nil. -/
theorem packets_arrive_at_most_twice (c : Mutex.Config remoteMachine) (hc : Mutex.Reachable remoteMachine {} c) (hfree : c.holder = none)
    (hlim : ∀ d ∈ attempted c.log, WithinLimit d) (p : Delivery → Bool) :
    (accepted c.log).countP p ≤ (received c.shared).countP p ∧ (received c.shared).countP p ≤ 2 * (attempted c.log).countP p := by
  have h := packets_arrive_in_order c hc hfree hlim
  generalize c.log = log at h
  generalize received c.shared = ds at h
  clear hlim
  induction h with
  | nil => simp [accepted]
  | collect i d ok n h h1 h2 ih =>
    simp only [attempted, accepted, List.filterMap_append, List.filterMap_cons, List.filterMap_nil, List.countP_append,
      List.countP_replicate, List.countP_singleton] at ih ⊢
    cases ok with
    | false =>
      simp only [Bool.false_eq_true, if_false, List.countP_nil]
      split <;> omega
    | true =>
      have h2 := h2 rfl
      simp only [if_true, List.countP_singleton]
      split <;> omega
  | close i ok h ih => simpa [attempted, accepted] using ih

/-- Both bounds are met: a packet can arrive twice although its call returned nil, and a packet can arrive twice although its call returned an
error.  Here the first call's connection breaks after its packet has been written whole, and both connections of the second call do. -/
theorem packet_arrives_twice : ∃ c : Mutex.Config remoteMachine, Mutex.Reachable remoteMachine {} c ∧ c.holder = none ∧
    (∀ d ∈ attempted c.log, WithinLimit d) ∧
    c.log = [(1, .collect (⟨1, 2, 0⟩, []), true), (2, .collect (⟨1, 3, 2⟩, []), true), (1, .collect (⟨1, 4, 2⟩, []), false)] ∧
    received c.shared = [(⟨1, 2, 0⟩, []), (⟨1, 3, 2⟩, []), (⟨1, 3, 2⟩, []), (⟨1, 4, 2⟩, []), (⟨1, 4, 2⟩, [])] := by
  have r0 := Mutex.Reachable.init (M := remoteMachine) (s := {})
  have r1 := r0.step (.call _ 1 (.collect (⟨1, 2, 0⟩, [])) rfl)
  have r2 := r1.step (.lock _ 1 _ rfl rfl)
  have r3 := r2.step (.micro _ 1 _ _ _ _ rfl (RemoteStep.checkNone _ (⟨1, 2, 0⟩, []) rfl))
  have r4 := r3.step (.micro _ 1 _ _ _ _ rfl (RemoteStep.disconnect _ (⟨1, 2, 0⟩, [])))
  have r5 := r4.step (.micro _ 1 _ _ _ _ rfl (RemoteStep.dialOk _ (⟨1, 2, 0⟩, [])))
  have r6 := r5.step (.micro _ 1 _ _ _ _ rfl (RemoteStep.len2Ok _ (⟨1, 2, 0⟩, []) 0 none _ rfl))
  have q0 := r6.step (.finish _ 1 _ _ _ _ rfl (RemoteStep.msg2Ok _ (⟨1, 2, 0⟩, []) 0 none _ rfl))
  have q1 := q0.step (.call _ 2 (.collect (⟨1, 3, 2⟩, [])) rfl)
  have q2 := q1.step (.lock _ 2 _ rfl rfl)
  have q3 := q2.step (.micro _ 2 _ _ _ _ rfl (RemoteStep.checkSome _ (⟨1, 3, 2⟩, []) 0 rfl))
  have q4 := q3.step (.micro _ 2 _ _ _ _ rfl (RemoteStep.len1Ok _ (⟨1, 3, 2⟩, []) 0 none _ rfl))
  have q5 := q4.step (.micro _ 2 _ _ _ _ rfl (RemoteStep.msg1Err _ (⟨1, 3, 2⟩, []) 0 (some 100) _ rfl))
  have q6 := q5.step (.micro _ 2 _ _ _ _ rfl (RemoteStep.disconnect _ (⟨1, 3, 2⟩, [])))
  have q7 := q6.step (.micro _ 2 _ _ _ _ rfl (RemoteStep.dialOk _ (⟨1, 3, 2⟩, [])))
  have q8 := q7.step (.micro _ 2 _ _ _ _ rfl (RemoteStep.len2Ok _ (⟨1, 3, 2⟩, []) 1 none _ rfl))
  have p0 := q8.step (.finish _ 2 _ _ _ _ rfl (RemoteStep.msg2Ok _ (⟨1, 3, 2⟩, []) 1 none _ rfl))
  have p1 := p0.step (.call _ 1 (.collect (⟨1, 4, 2⟩, [])) rfl)
  have p2 := p1.step (.lock _ 1 _ rfl rfl)
  have p3 := p2.step (.micro _ 1 _ _ _ _ rfl (RemoteStep.checkSome _ (⟨1, 4, 2⟩, []) 1 rfl))
  have p4 := p3.step (.micro _ 1 _ _ _ _ rfl (RemoteStep.len1Ok _ (⟨1, 4, 2⟩, []) 1 none _ rfl))
  have p5 := p4.step (.micro _ 1 _ _ _ _ rfl (RemoteStep.msg1Err _ (⟨1, 4, 2⟩, []) 1 (some 100) _ rfl))
  have p6 := p5.step (.micro _ 1 _ _ _ _ rfl (RemoteStep.disconnect _ (⟨1, 4, 2⟩, [])))
  have p7 := p6.step (.micro _ 1 _ _ _ _ rfl (RemoteStep.dialOk _ (⟨1, 4, 2⟩, [])))
  have p8 := p7.step (.micro _ 1 _ _ _ _ rfl (RemoteStep.len2Ok _ (⟨1, 4, 2⟩, []) 2 none _ rfl))
  have p9 := p8.step (.finish _ 1 _ _ _ _ rfl (RemoteStep.msg2Err _ (⟨1, 4, 2⟩, []) 2 (some 100) _ rfl))
  exact ⟨_, p9, rfl, by decide, rfl, by decide⟩

/-- The hypotheses are met, with a packet that arrives twice. -/
example : ∃ c : Mutex.Config remoteMachine, Arrived c.log (received c.shared) ∧ ¬ (received c.shared).Nodup := by
  obtain ⟨c, h1, h2, h3, -, h5⟩ := packet_arrives_twice
  exact ⟨c, packets_arrive_in_order c h1 h2 h3, by rw [h5]; decide⟩

end Appdash
