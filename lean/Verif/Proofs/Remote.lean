import Verif.Proofs.Mutex
import Verif.Proofs.Server

/-! # The remote collector writes whole frames -/

namespace Appdash

/-- A connection carries complete frames and at most one incomplete one, which is the last thing written to it. -/
def ConnOK (att : List Delivery) (c : Conn) : Prop :=
  ∃ part, c.bytes = sent c.log ++ part ∧ (c.dead = false → part = []) ∧
    (part = [] ∨ ∃ d ∈ att, part <+: frameOf d) ∧ ∀ d ∈ c.log, d ∈ att

/-- The same with a length already written. -/
def ConnMid (att : List Delivery) (d : Delivery) (c : Conn) : Prop :=
  c.dead = false ∧ c.bytes = sent c.log ++ encVarint (marshal (newCollectPacket d.1 d.2)).length ∧ ∀ d ∈ c.log, d ∈ att

/-- The state between calls. -/
def RI (att acc : List Delivery) (r : Remote) : Prop :=
  (∀ c ∈ r.conns, ConnOK att c) ∧ r.conns.flatMap Conn.log = acc ∧
    ∀ i, r.pconn = some i → ∃ pre c, r.conns = pre ++ [c] ∧ i = pre.length

/-- The state between the two writes of `WriteMsg`. -/
def RM (att acc : List Delivery) (d : Delivery) (i : Nat) (r : Remote) : Prop :=
  r.pconn = some i ∧ ∃ pre c, r.conns = pre ++ [c] ∧ i = pre.length ∧ (∀ c ∈ pre, ConnOK att c) ∧ ConnMid att d c ∧
    pre.flatMap Conn.log ++ c.log = acc

/-- The invariant between calls. -/
def RInv (r : Remote) (log : List (Nat × RemoteCall × Bool)) : Prop :=
  RI (attempted log) (accepted log) r ∧
    ∀ i d, log.getLast? = some (i, .collect d, true) → ∃ c, r.conns.getLast? = some c ∧ frameOf d <:+ c.bytes

/-- The invariant at each program point. -/
def RPoint (op : RemoteCall) (l : RemotePC) (r : Remote) (log : List (Nat × RemoteCall × Bool)) : Prop :=
  match l with
  | .check d => op = .collect d ∧ RI (attempted log ++ [d]) (accepted log) r
  | .len1 d i => op = .collect d ∧ RI (attempted log ++ [d]) (accepted log) r ∧ r.pconn = some i
  | .len2 d i => op = .collect d ∧ RI (attempted log ++ [d]) (accepted log) r ∧ r.pconn = some i
  | .msg1 d i => op = .collect d ∧ RM (attempted log ++ [d]) (accepted log) d i r
  | .msg2 d i => op = .collect d ∧ RM (attempted log ++ [d]) (accepted log) d i r
  | .disconnect d => op = .collect d ∧ RI (attempted log ++ [d]) (accepted log) r
  | .dial d => op = .collect d ∧ RI (attempted log ++ [d]) (accepted log) r ∧ r.pconn = none
  | .close => op = .close ∧ RI (attempted log) (accepted log) r

theorem ConnOK.mono {att att' : List Delivery} {c : Conn} (h : ConnOK att c) (hs : ∀ d ∈ att, d ∈ att') :
    ConnOK att' c := by
  obtain ⟨part, h1, h2, h3, h4⟩ := h
  refine ⟨part, h1, h2, ?_, fun d hd => hs d (h4 d hd)⟩
  rcases h3 with h | ⟨d, hd, h⟩
  · exact .inl h
  · exact .inr ⟨d, hs d hd, h⟩

theorem RI.mono {att att' acc : List Delivery} {r : Remote} (h : RI att acc r) (hs : ∀ d ∈ att, d ∈ att') :
    RI att' acc r := ⟨fun c hc => (h.1 c hc).mono hs, h.2⟩

theorem getD_last (pre : List Conn) (c : Conn) : (pre ++ [c]).getD pre.length {} = c := by
  simp [List.getD_eq_getElem?_getD]

theorem set_last (pre : List Conn) (c c' : Conn) : (pre ++ [c]).set pre.length c' = pre ++ [c'] := by
  simp

theorem RI.closeConn {att acc : List Delivery} {r : Remote} (h : RI att acc r) :
    RI att acc r.closeConn ∧ r.closeConn.pconn = none := by
  simp only [Remote.closeConn]
  cases hp : r.pconn with
  | none => exact ⟨h, hp⟩
  | some i =>
    obtain ⟨pre, c, hc, rfl⟩ := h.2.2 i hp
    refine ⟨⟨?_, ?_, by simp⟩, rfl⟩
    · intro c' hc'
      simp only [hc, getD_last, set_last, List.mem_append, List.mem_singleton] at hc'
      rcases hc' with hc' | rfl
      · exact h.1 c' (by simp [hc, hc'])
      · obtain ⟨part, h1, -, h3, h4⟩ := h.1 c (by simp [hc])
        exact ⟨part, h1, by simp, h3, h4⟩
    · rw [← h.2.1, hc]
      simp

/-- The first write of `WriteMsg`. -/
theorem RI.len {att acc : List Delivery} {r : Remote} {d : Delivery} {i : Nat} {f : WriteFault} {c : Conn} {ok : Bool}
    (h : RI att acc r) (hp : r.pconn = some i) (hd : d ∈ att)
    (hw : (r.conns.getD i {}).write (encVarint (marshal (newCollectPacket d.1 d.2)).length) f = (c, ok)) :
    (ok = true → RM att acc d i { r with conns := r.conns.set i c }) ∧
    (ok = false → RI att acc { r with conns := r.conns.set i c }) := by
  obtain ⟨pre, c0, hc, rfl⟩ := h.2.2 i hp
  rw [hc, getD_last] at hw
  rw [hc, set_last]
  obtain ⟨part, h1, h2, h3, h4⟩ := h.1 c0 (by simp [hc])
  have hpre : ∀ c ∈ pre, ConnOK att c := fun c hcc => h.1 c (by simp [hc, hcc])
  have hacc : pre.flatMap Conn.log ++ c0.log = acc := by rw [← h.2.1, hc]; simp
  simp only [Conn.write] at hw
  split at hw
  · rename_i hdead
    cases hw
    refine ⟨by simp, fun _ => ⟨?_, by rw [← hacc]; simp, ?_⟩⟩
    · intro c' hc'
      simp only [List.mem_append, List.mem_singleton] at hc'
      rcases hc' with hc' | rfl
      · exact hpre c' hc'
      · exact ⟨part, h1, h2, h3, h4⟩
    · intro i hi
      simp only [hp, Option.some.injEq] at hi
      exact ⟨pre, _, rfl, hi.symm⟩
  · rename_i hdead
    have hdead : c0.dead = false := by simpa using hdead
    have hpart := h2 hdead
    subst hpart
    rw [List.append_nil] at h1
    cases f with
    | none =>
      simp only [Prod.mk.injEq] at hw
      obtain ⟨rfl, rfl⟩ := hw
      refine ⟨fun _ => ⟨hp, pre, _, rfl, rfl, hpre, ⟨hdead, ?_, h4⟩, by simpa using hacc⟩, by simp⟩
      simp [h1]
    | some k =>
      simp only [Prod.mk.injEq] at hw
      obtain ⟨rfl, rfl⟩ := hw
      refine ⟨by simp, fun _ => ⟨?_, by rw [← hacc]; simp, ?_⟩⟩
      · intro c' hc'
        simp only [List.mem_append, List.mem_singleton] at hc'
        rcases hc' with hc' | rfl
        · exact hpre c' hc'
        · refine ⟨(encVarint (marshal (newCollectPacket d.1 d.2)).length).take k, by simp [h1], by simp, .inr ⟨d, hd, ?_⟩, h4⟩
          exact (List.take_prefix _ _).trans (List.prefix_append _ _)
      · intro i hi
        simp only [hp, Option.some.injEq] at hi
        exact ⟨pre, _, rfl, hi.symm⟩

/-- The second write of `WriteMsg`. -/
theorem RM.msg {att acc : List Delivery} {r : Remote} {d : Delivery} {i : Nat} {f : WriteFault} {c : Conn} {ok : Bool}
    (h : RM att acc d i r) (hd : d ∈ att)
    (hw : (r.conns.getD i {}).write (marshal (newCollectPacket d.1 d.2)) f = (c, ok)) :
    (ok = true → RI att (acc ++ [d]) { r with conns := r.conns.set i { c with log := c.log ++ [d] } } ∧
      ∃ c', (r.conns.set i { c with log := c.log ++ [d] }).getLast? = some c' ∧ frameOf d <:+ c'.bytes) ∧
    (ok = false → RI att acc { r with conns := r.conns.set i c }) := by
  obtain ⟨hp, pre, c0, hc, rfl, hpre, ⟨hdead, hb, h4⟩, hacc⟩ := h
  rw [hc, getD_last] at hw
  rw [hc, set_last, set_last]
  simp only [Conn.write, hdead, Bool.false_eq_true, if_false] at hw
  cases f with
  | none =>
    simp only [Prod.mk.injEq] at hw
    obtain ⟨rfl, rfl⟩ := hw
    refine ⟨fun _ => ⟨⟨?_, by simp [← hacc], ?_⟩, ?_⟩, by simp⟩
    · intro c' hc'
      simp only [List.mem_append, List.mem_singleton] at hc'
      rcases hc' with hc' | rfl
      · exact hpre c' hc'
      · refine ⟨[], by simp [hb, sent, frameOf, frame], by simp, .inl rfl, ?_⟩
        intro d' hd'
        simp only [List.mem_append, List.mem_singleton] at hd'
        rcases hd' with hd' | rfl
        · exact h4 d' hd'
        · exact hd
    · intro i hi
      simp only [hp, Option.some.injEq] at hi
      exact ⟨pre, _, rfl, hi.symm⟩
    · refine ⟨_, by simp; rfl, ?_⟩
      simp only [hb, frameOf, frame, List.append_assoc]
      exact List.suffix_append _ _
  | some k =>
    simp only [Prod.mk.injEq] at hw
    obtain ⟨rfl, rfl⟩ := hw
    refine ⟨by simp, fun _ => ⟨?_, by simp [← hacc], ?_⟩⟩
    · intro c' hc'
      simp only [List.mem_append, List.mem_singleton] at hc'
      rcases hc' with hc' | rfl
      · exact hpre c' hc'
      · refine ⟨encVarint (marshal (newCollectPacket d.1 d.2)).length ++ (marshal (newCollectPacket d.1 d.2)).take k,
          by simp [hb], by simp, .inr ⟨d, hd, ?_⟩, h4⟩
        rw [frameOf, frame, List.prefix_append_right_inj]
        exact List.take_prefix _ _
    · intro i hi
      simp only [hp, Option.some.injEq] at hi
      exact ⟨pre, _, rfl, hi.symm⟩

theorem remote_micro {op : RemoteCall} {l l' : RemotePC} {r r' : Remote} {log : List (Nat × RemoteCall × Bool)}
    (h : RPoint op l r log) (hs : RemoteStep l r r' (.inl l')) : RPoint op l' r' log := by
  cases hs with
  | checkNone _ d hp => exact h
  | checkSome _ d i hp => exact ⟨h.1, h.2, hp⟩
  | len1Ok _ d i f c hw => exact ⟨h.1, (h.2.1.len h.2.2 (by simp) hw).1 rfl⟩
  | len1Err _ d i f c hw => exact ⟨h.1, (h.2.1.len h.2.2 (by simp) hw).2 rfl⟩
  | msg1Err _ d i f c hw => exact ⟨h.1, (h.2.msg (by simp) hw).2 rfl⟩
  | disconnect _ d => exact ⟨h.1, h.2.closeConn.1, h.2.closeConn.2⟩
  | dialOk _ d =>
    obtain ⟨h1, h2, h3⟩ := h
    refine ⟨h1, ⟨?_, by simp [← h2.2.1], ?_⟩, rfl⟩
    · intro c hc
      simp only [List.mem_append, List.mem_singleton] at hc
      rcases hc with hc | rfl
      · exact h2.1 c hc
      · exact ⟨[], by simp [sent], by simp, .inl rfl, by simp⟩
    · intro i hi
      simp only [Option.some.injEq] at hi
      exact ⟨r.conns, {}, rfl, hi.symm⟩
  | len2Ok _ d i f c hw => exact ⟨h.1, (h.2.1.len h.2.2 (by simp) hw).1 rfl⟩

theorem remote_finish {op : RemoteCall} {l : RemotePC} {r r' : Remote} {log : List (Nat × RemoteCall × Bool)} {ok : Bool}
    (i : Nat) (h : RPoint op l r log) (hs : RemoteStep l r r' (.inr ok)) : RInv r' (log ++ [(i, op, ok)]) := by
  have fail : ∀ {d r'}, op = .collect d → RI (attempted log ++ [d]) (accepted log) r' →
      RInv r' (log ++ [(i, op, false)]) := by
    rintro d r' rfl h
    refine ⟨by simpa [attempted, accepted] using h, ?_⟩
    intro i d hl
    simp at hl
  have succ : ∀ {d r'}, op = .collect d → RI (attempted log ++ [d]) (accepted log ++ [d]) r' ∧
      (∃ c', r'.conns.getLast? = some c' ∧ frameOf d <:+ c'.bytes) → RInv r' (log ++ [(i, op, true)]) := by
    rintro d r' rfl ⟨h, h2⟩
    refine ⟨by simpa [attempted, accepted] using h, ?_⟩
    intro i d hl
    simp at hl
    obtain ⟨-, rfl⟩ := hl
    exact h2
  cases hs with
  | msg1Ok _ d j f c hw => exact succ h.1 ((h.2.msg (by simp) hw).1 rfl)
  | dialErr _ d => exact fail h.1 h.2.1
  | len2Err _ d j f c hw => exact fail h.1 ((h.2.1.len h.2.2 (by simp) hw).2 rfl)
  | msg2Ok _ d j f c hw => exact succ h.1 ((h.2.msg (by simp) hw).1 rfl)
  | msg2Err _ d j f c hw => exact fail h.1 ((h.2.msg (by simp) hw).2 rfl)
  | close _ =>
    obtain ⟨rfl, h⟩ := h
    refine ⟨by simpa [attempted, accepted] using h.closeConn.1, ?_⟩
    intro i d hl
    simp at hl

theorem remote_inv {c : Mutex.Config remoteMachine} (h : Mutex.Reachable remoteMachine {} c) :
    (c.holder = none → RInv c.shared c.log) ∧ ∀ i op l, c.threads i = .inside op l → RPoint op l c.shared c.log := by
  refine Mutex.reachable_inv (M := remoteMachine) RInv RPoint ?_ ?_ ?_ ?_ h
  · exact ⟨⟨by simp, rfl, by simp⟩, by simp⟩
  · intro op s log hi
    cases op with
    | collect d => exact ⟨rfl, hi.1.mono (by intro d hd; simp [hd])⟩
    | close => exact ⟨rfl, hi.1⟩
  · intro op l l' s s' log hp hs
    exact remote_micro hp hs
  · intro op l s s' r log i hp hs
    exact remote_finish i hp hs

/-- Inversion with the concrete step relation. -/
theorem remoteRuns_inv {l : RemotePC} {s s' : Remote} {r : Bool} (h : Mutex.Runs remoteMachine l s s' r) :
    RemoteStep l s s' (.inr r) ∨ ∃ l' s1, RemoteStep l s s1 (.inl l') ∧ Mutex.Runs remoteMachine l' s1 s' r := h.inv

theorem closeConn_counts (r : Remote) : r.closeConn.writes = r.writes ∧ r.closeConn.dials = r.dials := by
  unfold Remote.closeConn; split <;> simp

/-- Every connection, at any moment. -/
theorem remote_shape {c : Mutex.Config remoteMachine} (h : Mutex.Reachable remoteMachine {} c) (k : Conn)
    (hk : k ∈ c.shared.conns) :
    ∃ part, k.bytes = sent k.log ++ part ∧ (part = [] ∨ ∃ d, Called c d ∧ part <+: frameOf d) ∧
      ∀ d ∈ k.log, Called c d := by
  obtain ⟨h1, h2⟩ := remote_inv h
  have fin : ∀ att, ConnOK att k → (∀ d ∈ att, Called c d) → ∃ part, k.bytes = sent k.log ++ part ∧
      (part = [] ∨ ∃ d, Called c d ∧ part <+: frameOf d) ∧ ∀ d ∈ k.log, Called c d := by
    rintro att ⟨part, a, -, b, e⟩ hatt
    refine ⟨part, a, ?_, fun d hd => hatt d (e d hd)⟩
    rcases b with b | ⟨d, hd, b⟩
    · exact .inl b
    · exact .inr ⟨d, hatt d hd, b⟩
  cases hh : c.holder with
  | none => exact fin _ ((h1 hh).1.1 k hk) (fun d hd => .inl hd)
  | some i =>
    obtain ⟨-, mid, -, hp⟩ := Mutex.inv_reachable h
    rw [hh] at hp
    obtain ⟨op, l, hi, -⟩ := hp
    have hpt := h2 i op l hi
    have called : ∀ d, op = .collect d → ∀ d' ∈ attempted c.log ++ [d], Called c d' := by
      rintro d rfl d' hd'
      simp only [List.mem_append, List.mem_singleton] at hd'
      rcases hd' with hd' | rfl
      · exact .inl hd'
      · exact .inr ⟨i, l, hi⟩
    have mid : ∀ d j, op = .collect d → RM (attempted c.log ++ [d]) (accepted c.log) d j c.shared →
        ∃ part, k.bytes = sent k.log ++ part ∧ (part = [] ∨ ∃ d, Called c d ∧ part <+: frameOf d) ∧
          ∀ d ∈ k.log, Called c d := by
      rintro d j hop ⟨-, pre, c0, e1, -, e2, ⟨-, e4, e5⟩, -⟩
      rw [e1] at hk
      simp only [List.mem_append, List.mem_singleton] at hk
      rcases hk with hk | rfl
      · exact fin _ (e2 k hk) (called d hop)
      · exact ⟨_, e4, .inr ⟨d, called d hop d (by simp), List.prefix_append _ _⟩, fun d' hd' => called d hop d' (e5 d' hd')⟩
    cases l with
    | check d => exact fin _ (hpt.2.1 k hk) (called d hpt.1)
    | len1 d j => exact fin _ (hpt.2.1.1 k hk) (called d hpt.1)
    | len2 d j => exact fin _ (hpt.2.1.1 k hk) (called d hpt.1)
    | msg1 d j => exact mid d j hpt.1 hpt.2
    | msg2 d j => exact mid d j hpt.1 hpt.2
    | disconnect d => exact fin _ (hpt.2.1 k hk) (called d hpt.1)
    | dial d => exact fin _ (hpt.2.1.1 k hk) (called d hpt.1)
    | close => exact fin _ (hpt.2.1 k hk) (fun d hd => .inl hd)

/-- One call makes at most one dial and at most two write attempts. -/
theorem remote_counts {d : Delivery} {r r' : Remote} {ok : Bool}
    (h : Mutex.Runs remoteMachine (.check d) r r' ok) : r'.dials ≤ r.dials + 1 ∧ r'.writes ≤ r.writes + 2 := by
  have msg2 : ∀ {i r r' ok}, Mutex.Runs remoteMachine (.msg2 d i) r r' ok → r'.dials = r.dials ∧ r'.writes = r.writes := by
    intro i r r' ok h
    rcases remoteRuns_inv h with h | ⟨l', s1, h, -⟩
    · cases h <;> exact ⟨rfl, rfl⟩
    · cases h
  have len2 : ∀ {i r r' ok}, Mutex.Runs remoteMachine (.len2 d i) r r' ok → r'.dials = r.dials ∧ r'.writes = r.writes := by
    intro i r r' ok h
    rcases remoteRuns_inv h with h | ⟨l', s1, h, h2⟩
    · cases h; exact ⟨rfl, rfl⟩
    · cases h; have := msg2 h2; exact this
  have dial : ∀ {r r' ok}, Mutex.Runs remoteMachine (.dial d) r r' ok →
      r'.dials ≤ r.dials + 1 ∧ r'.writes ≤ r.writes + 1 := by
    intro r r' ok h
    rcases remoteRuns_inv h with h | ⟨l', s1, h, h2⟩
    · cases h; simp
    · cases h
      have := len2 h2
      simp only at this
      omega
  have disc : ∀ {r r' ok}, Mutex.Runs remoteMachine (.disconnect d) r r' ok →
      r'.dials ≤ r.dials + 1 ∧ r'.writes ≤ r.writes + 1 := by
    intro r r' ok h
    rcases remoteRuns_inv h with h | ⟨l', s1, h, h2⟩
    · cases h
    · cases h
      have h3 := dial h2
      have h4 := closeConn_counts r
      omega
  have msg1 : ∀ {i r r' ok}, Mutex.Runs remoteMachine (.msg1 d i) r r' ok →
      r'.dials ≤ r.dials + 1 ∧ r'.writes ≤ r.writes + 1 := by
    intro i r r' ok h
    rcases remoteRuns_inv h with h | ⟨l', s1, h, h2⟩
    · cases h; simp
    · cases h; have := disc h2; exact this
  have len1 : ∀ {i r r' ok}, Mutex.Runs remoteMachine (.len1 d i) r r' ok →
      r'.dials ≤ r.dials + 1 ∧ r'.writes ≤ r.writes + 1 := by
    intro i r r' ok h
    rcases remoteRuns_inv h with h | ⟨l', s1, h, h2⟩
    · cases h
    · cases h with
      | len1Ok => have := msg1 h2; exact this
      | len1Err => have := disc h2; exact this
  rcases remoteRuns_inv h with h | ⟨l', s1, h, h2⟩
  · cases h
  · cases h with
    | checkNone => have := disc h2; omega
    | checkSome =>
      have := len1 h2
      simp only at this
      omega

/-! ## What the servers at the other ends receive -/

/-- The server of a connection that carried complete frames and part of one. -/
theorem handleConn_shape (ds : List Delivery) (hds : ∀ d ∈ ds, WithinLimit d) (part : Bytes) :
    (handleConn acceptAll (sent ds ++ part)) = handleLoop acceptAll (part.length + 1) ds part := by
  unfold handleConn
  rw [handleLoop_sent ds hds part []]
  rfl

end Appdash
