import Verif.Proofs.Remote
import Verif.Spec.RemoteArrival

/-! # Each call's packet arrives at most twice -/

namespace Appdash

/-- What one server is given. -/
def recv (k : Conn) : List Delivery := (handleConn acceptAll k.bytes).1

theorem recv_sent {k : Conn} {ds : List Delivery} (h : ∀ d ∈ ds, WithinLimit d) (hk : k.bytes = sent ds) : recv k = ds := by
  have := handleConn_shape ds h []
  rw [List.append_nil] at this
  rw [recv, hk, this, handleLoop_nil]

theorem recv_part {k : Conn} {ds : List Delivery} {d : Delivery} {part : Bytes} (h : ∀ d ∈ ds, WithinLimit d) (hd : WithinLimit d)
    (hk : k.bytes = sent ds ++ part) (hp : part <+: frameOf d) : recv k = ds ∨ recv k = ds ++ [d] := by
  by_cases he : part = frameOf d
  · right
    refine recv_sent (fun x hx => ?_) (by rw [hk, he]; simp [sent])
    simp only [List.mem_append, List.mem_singleton] at hx
    rcases hx with hx | rfl
    · exact h x hx
    · exact hd
  · left
    rw [recv, hk, handleConn_shape ds h]
    rcases handleLoop_part (rejects := acceptAll) d hd part hp he part.length ds with h | h <;> rw [h]

theorem received_append (pre : List Conn) (c : Conn) (r : Remote) (h : r.conns = pre ++ [c]) :
    received r = pre.flatMap recv ++ recv c := by
  rw [received, h, List.flatMap_append, List.flatMap_cons, List.flatMap_nil, List.append_nil]
  rfl

/-- What has arrived after the finished calls and, at most `b` times, `d`. -/
def RA (log : List (Nat × RemoteCall × Bool)) (d : Delivery) (b : Nat) (ds : List Delivery) : Prop :=
  ∃ ds0 n, Arrived log ds0 ∧ n ≤ b ∧ ds = ds0 ++ List.replicate n d

theorem RA.weaken {log : List (Nat × RemoteCall × Bool)} {d : Delivery} {b b' : Nat} {ds : List Delivery} (h : RA log d b ds) (hb : b ≤ b') :
    RA log d b' ds := by
  obtain ⟨ds0, n, h1, h2, h3⟩ := h
  exact ⟨ds0, n, h1, by omega, h3⟩

theorem RA.more {log : List (Nat × RemoteCall × Bool)} {d : Delivery} {b : Nat} {ds : List Delivery} (h : RA log d b ds) :
    RA log d (b + 1) (ds ++ [d]) := by
  obtain ⟨ds0, n, h1, h2, h3⟩ := h
  exact ⟨ds0, n + 1, h1, by omega, by rw [h3, List.replicate_succ', List.append_assoc]⟩

/-- Between the two writes of a packet. -/
def RAMid (log : List (Nat × RemoteCall × Bool)) (d : Delivery) (b : Nat) (r : Remote) : Prop :=
  ∀ pre c, r.conns = pre ++ [c] → RA log d b (pre.flatMap recv ++ c.log)

/-- What has arrived at each program point. -/
def APoint (l : RemotePC) (r : Remote) (log : List (Nat × RemoteCall × Bool)) : Prop :=
  match l with
  | .check d => RA log d 0 (received r)
  | .len1 d _ => RA log d 0 (received r)
  | .msg1 d _ => RAMid log d 0 r
  | .disconnect d => RA log d 1 (received r)
  | .dial d => RA log d 1 (received r)
  | .len2 d _ => RA log d 1 (received r)
  | .msg2 d _ => RAMid log d 1 r
  | .close => Arrived log (received r)

theorem received_close {att acc : List Delivery} {r : Remote} (h : RI att acc r) : received r.closeConn = received r := by
  unfold Remote.closeConn
  cases hp : r.pconn with
  | none => rfl
  | some i =>
    obtain ⟨pre, c, hc, rfl⟩ := h.2.2 i hp
    simp only [received, hc, getD_last, set_last, List.flatMap_append, List.flatMap_cons, List.flatMap_nil]

/-- The first write of a packet. -/
theorem RI.lenA {att acc : List Delivery} {r : Remote} {d : Delivery} {i : Nat} {f : WriteFault} {c : Conn} {ok : Bool}
    {log : List (Nat × RemoteCall × Bool)} {b : Nat} (hl : ∀ d ∈ att, WithinLimit d)
    (h : RI att acc r) (hp : r.pconn = some i) (hd : d ∈ att)
    (hw : (r.conns.getD i {}).write (encVarint (marshal (newCollectPacket d.1 d.2)).length) f = (c, ok)) (ha : RA log d b (received r)) :
    (ok = true → RAMid log d b { r with conns := r.conns.set i c }) ∧
    (ok = false → RA log d (b + 1) (received { r with conns := r.conns.set i c })) := by
  obtain ⟨pre, c0, hc, rfl⟩ := h.2.2 i hp
  rw [hc, getD_last] at hw
  rw [hc, set_last]
  obtain ⟨part, h1, h2, h3, h4⟩ := h.1 c0 (by simp [hc])
  rw [received_append pre c0 r hc] at ha
  simp only [Conn.write] at hw
  split at hw
  · cases hw
    exact ⟨by simp, fun _ => by rw [received_append pre _ _ rfl]; exact ha.weaken (by omega)⟩
  · rename_i hdead
    have hdead : c0.dead = false := by simpa using hdead
    have hpart := h2 hdead
    subst hpart
    rw [List.append_nil] at h1
    have hr0 : recv c0 = c0.log := recv_sent (fun d hd => hl d (h4 d hd)) h1
    rw [hr0] at ha
    cases f with
    | none =>
      simp only [Prod.mk.injEq] at hw
      obtain ⟨rfl, rfl⟩ := hw
      refine ⟨fun _ => ?_, by simp⟩
      intro pre' c' hc'
      obtain ⟨rfl, hcc⟩ := List.append_inj' hc' rfl
      cases hcc
      exact ha
    | some k =>
      simp only [Prod.mk.injEq] at hw
      obtain ⟨rfl, rfl⟩ := hw
      refine ⟨by simp, fun _ => ?_⟩
      rw [received_append pre _ _ rfl]
      rcases recv_part (k := { c0 with
          bytes := c0.bytes ++ (encVarint (marshal (newCollectPacket d.1 d.2)).length).take k, dead := true })
        (ds := c0.log) (d := d) (fun d hd => hl d (h4 d hd)) (hl d hd) (by simp only [h1]; rfl)
        ((List.take_prefix _ _).trans (List.prefix_append _ _)) with he | he
      · rw [he]; exact ha.weaken (by omega)
      · rw [he, ← List.append_assoc]; exact ha.more

/-- The second write of a packet. -/
theorem RM.msgA {att acc : List Delivery} {r : Remote} {d : Delivery} {i : Nat} {f : WriteFault} {c : Conn} {ok : Bool}
    {log : List (Nat × RemoteCall × Bool)} {b : Nat} (hl : ∀ d ∈ att, WithinLimit d) (h : RM att acc d i r) (hd : d ∈ att)
    (hw : (r.conns.getD i {}).write (marshal (newCollectPacket d.1 d.2)) f = (c, ok)) (ha : RAMid log d b r) :
    (ok = true → ∃ ds n, Arrived log ds ∧ n ≤ b + 1 ∧ 1 ≤ n ∧
      received { r with conns := r.conns.set i { c with log := c.log ++ [d] } } = ds ++ List.replicate n d) ∧
    (ok = false → RA log d (b + 1) (received { r with conns := r.conns.set i c })) := by
  obtain ⟨hp, pre, c0, hc, rfl, hpre, ⟨hdead, hb, h4⟩, hacc⟩ := h
  have ha := ha pre c0 hc
  rw [hc, getD_last] at hw
  rw [hc, set_last, set_last]
  simp only [Conn.write, hdead, Bool.false_eq_true, if_false] at hw
  cases f with
  | none =>
    simp only [Prod.mk.injEq] at hw
    obtain ⟨rfl, rfl⟩ := hw
    refine ⟨fun _ => ?_, by simp⟩
    rw [received_append pre _ _ rfl, recv_sent (ds := c0.log ++ [d]) ?_ (by simp [hb, sent, frameOf, frame])]
    · obtain ⟨ds, n, h1, h2, h3⟩ := ha
      exact ⟨ds, n + 1, h1, by omega, by omega, by rw [← List.append_assoc, h3, List.replicate_succ', List.append_assoc]⟩
    · intro x hx
      simp only [List.mem_append, List.mem_singleton] at hx
      rcases hx with hx | rfl
      · exact hl x (h4 x hx)
      · exact hl x hd
  | some k =>
    simp only [Prod.mk.injEq] at hw
    obtain ⟨rfl, rfl⟩ := hw
    refine ⟨by simp, fun _ => ?_⟩
    rw [received_append pre _ _ rfl]
    rcases recv_part (k := { c0 with bytes := c0.bytes ++ (marshal (newCollectPacket d.1 d.2)).take k, dead := true })
      (ds := c0.log) (d := d)
      (part := encVarint (marshal (newCollectPacket d.1 d.2)).length ++ (marshal (newCollectPacket d.1 d.2)).take k)
      (fun d hd => hl d (h4 d hd)) (hl d hd) (by simp only [hb, List.append_assoc])
      (by rw [frameOf, frame, List.prefix_append_right_inj]; exact List.take_prefix _ _) with he | he
    · rw [he]; exact ha.weaken (by omega)
    · rw [he, ← List.append_assoc]; exact ha.more

/-- The packet of a call. -/
def RemoteCall.packets : RemoteCall → List Delivery
  | .collect d => [d]
  | .close => []

theorem arrival_inv {c : Mutex.Config remoteMachine} (h : Mutex.Reachable remoteMachine {} c) :
    (c.holder = none → RInv c.shared c.log ∧ ((∀ d ∈ attempted c.log, WithinLimit d) → Arrived c.log (received c.shared))) ∧
      ∀ i op l, c.threads i = .inside op l →
        RPoint op l c.shared c.log ∧ ((∀ d ∈ attempted c.log ++ op.packets, WithinLimit d) → APoint l c.shared c.log) := by
  refine Mutex.reachable_inv (M := remoteMachine)
    (fun r log => RInv r log ∧ ((∀ d ∈ attempted log, WithinLimit d) → Arrived log (received r)))
    (fun op l r log => RPoint op l r log ∧ ((∀ d ∈ attempted log ++ op.packets, WithinLimit d) → APoint l r log)) ?_ ?_ ?_ ?_ h
  · exact ⟨⟨⟨by simp, rfl, by simp⟩, by simp⟩, fun _ => .nil⟩
  · rintro op s log ⟨hi, ha⟩
    cases op with
    | collect d =>
      refine ⟨⟨rfl, hi.1.mono (by intro d hd; simp [hd])⟩, fun hl => ?_⟩
      exact ⟨_, 0, ha (fun d hd => hl d (by simp [hd])), by omega, by simp⟩
    | close => exact ⟨⟨rfl, hi.1⟩, fun hl => ha (fun d hd => hl d (by simp [hd]))⟩
  · rintro op l l' s s' log ⟨hp, ha⟩ hs
    refine ⟨remote_micro hp hs, fun hl => ?_⟩
    replace ha := ha hl
    change RemoteStep l s s' (.inl l') at hs
    cases hs with
    | checkNone _ d hn => exact ha.weaken (by omega)
    | checkSome _ d i hn => exact ha
    | len1Ok _ d i f c hw =>
      obtain ⟨rfl, h1, h2⟩ := hp
      exact (h1.lenA hl h2 (by simp [RemoteCall.packets]) hw ha).1 rfl
    | len1Err _ d i f c hw =>
      obtain ⟨rfl, h1, h2⟩ := hp
      exact (h1.lenA hl h2 (by simp [RemoteCall.packets]) hw ha).2 rfl
    | msg1Err _ d i f c hw =>
      obtain ⟨rfl, h1⟩ := hp
      exact (h1.msgA hl (by simp [RemoteCall.packets]) hw ha).2 rfl
    | disconnect _ d =>
      show RA _ _ _ (received s.closeConn)
      rw [received_close hp.2]
      exact ha
    | dialOk _ d =>
      have : received { s with conns := s.conns ++ [{}], pconn := some s.conns.length, dials := s.dials + 1, writes := s.writes + 1 } = received s := by
        rw [received_append s.conns _ _ rfl, recv_sent (ds := []) (by simp) rfl, List.append_nil]
        rfl
      show RA _ _ _ (received _)
      rw [this]
      exact ha
    | len2Ok _ d i f c hw =>
      obtain ⟨rfl, h1, h2⟩ := hp
      exact (h1.lenA hl h2 (by simp [RemoteCall.packets]) hw ha).1 rfl
  · rintro op l s s' r log i ⟨hp, ha⟩ hs
    refine ⟨remote_finish i hp hs, fun hl => ?_⟩
    have hl' : ∀ d ∈ attempted log ++ op.packets, WithinLimit d := by
      intro d hd
      refine hl d ?_
      cases op <;> simpa [attempted, RemoteCall.packets] using hd
    replace ha := ha hl'
    change RemoteStep l s s' (.inr r) at hs
    have fail : ∀ {d ds}, op = .collect d → RA log d 2 ds → Arrived (log ++ [(i, op, false)]) ds := by
      rintro d ds rfl ⟨ds0, n, h1, h2, rfl⟩
      exact .collect i d false n h1 h2 (by simp)
    have succ : ∀ {d ds}, op = .collect d → (∃ ds0 n, Arrived log ds0 ∧ n ≤ 2 ∧ 1 ≤ n ∧ ds = ds0 ++ List.replicate n d) →
        Arrived (log ++ [(i, op, true)]) ds := by
      rintro d ds rfl ⟨ds0, n, h1, h2, h3, rfl⟩
      exact .collect i d true n h1 h2 (fun _ => h3)
    cases hs with
    | msg1Ok _ d j f c hw =>
      obtain ⟨rfl, h1⟩ := hp
      obtain ⟨ds0, n, k1, k2, k3, k4⟩ := (h1.msgA hl' (by simp [RemoteCall.packets]) hw ha).1 rfl
      exact succ rfl ⟨ds0, n, k1, by omega, k3, k4⟩
    | dialErr _ d => exact fail hp.1 (ha.weaken (by omega))
    | len2Err _ d j f c hw =>
      obtain ⟨rfl, h1, h2⟩ := hp
      exact fail rfl ((h1.lenA hl' h2 (by simp [RemoteCall.packets]) hw ha).2 rfl)
    | msg2Ok _ d j f c hw =>
      obtain ⟨rfl, h1⟩ := hp
      exact succ rfl ((h1.msgA hl' (by simp [RemoteCall.packets]) hw ha).1 rfl)
    | msg2Err _ d j f c hw =>
      obtain ⟨rfl, h1⟩ := hp
      exact fail rfl ((h1.msgA hl' (by simp [RemoteCall.packets]) hw ha).2 rfl)
    | close _ =>
      obtain ⟨rfl, h1⟩ := hp
      rw [received_close h1]
      exact .close i true ha

end Appdash
