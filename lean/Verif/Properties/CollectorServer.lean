import Verif.Proofs.CollectorServer
import Verif.Spec.CollectorServer
import Verif.Properties.EndToEnd
import Verif.Proofs.CollectorServerWork

/-!
# C111, C112: the collector server and its clients
-/

namespace Appdash

open Spec

/-! ## C111 -/

/-- **C111** (the store).  The store is what the calls of the handlers make of it, one after the other. -/
theorem server_calls_stored {s : ServerState} (h : ServerReachable s) :
    MemStore.new.run (s.calls.map fun c => .collect c.2.1 c.2.2) = some s.store := (server_inv h).store

/-- **C111** (order).  At any time, whatever other clients do, what has been stored from a client is a beginning of the packets that the
client has sent, in the order in which it has sent them: nothing of it is taken for something else, and nothing is skipped. -/
theorem server_client_order {s : ServerState} (h : ServerReachable s) {i : Nat} {k : SrvConn} (hk : s.conns[i]? = some k) :
    s.callsFrom i <+: packetsOf k.received := by
  have hI := (server_inv h).conns i k hk
  show s.callsFrom i <+: (handleRest [] k.received).1
  cases hb : k.broken with
  | true => simpa using hI.broke hb [] (fun _ => rfl)
  | false =>
    cases hr : k.result with
    | none =>
      have := hI.active hr [] (fun _ => rfl)
      simp only [List.append_nil] at this
      rw [this]
      exact handleRest_prefix _ _
    | some e =>
      have := hI.over e hr hb [] (fun _ => rfl)
      simp only [List.append_nil] at this
      rw [this]

/-- **C111** (completeness, one client).  When no handler can go on, everything that a client whose connection has not broken has sent is stored. -/
theorem server_settled_client {s : ServerState} (h : ServerReachable s) (hs : Settled s) (hc : s.crashed = false) {i : Nat} {k : SrvConn}
    (hk : s.conns[i]? = some k) (hb : k.broken = false) : s.callsFrom i = packetsOf k.received := by
  have hI := (server_inv h).conns i k hk
  show s.callsFrom i = (handleRest [] k.received).1
  cases hr : k.result with
  | some e =>
    have := hI.over e hr hb [] (fun _ => rfl)
    simp only [List.append_nil] at this
    rw [this]
  | none =>
    have := hI.active hr [] (fun _ => rfl)
    simp only [List.append_nil] at this
    rw [this]
    rcases readNow_none (settled_conn h hs hc hk hr) with e | e
    · rw [handleRest_eof e]
    · rw [handleRest_err e]

/-- **C111** (completeness).  When no handler can go on and no connection has broken, the store has received exactly the packets of all
clients. -/
theorem server_settled_complete {s : ServerState} (h : ServerReachable s) (hs : Settled s) (hc : s.crashed = false)
    (hb : ∀ k ∈ s.conns, k.broken = false) : (s.calls.map Prod.snd).Perm (s.conns.flatMap fun k => packetsOf k.received) := by
  rw [← range_flatMap_get s.conns (fun k => packetsOf k.received) s.callsFrom fun i k hk =>
    server_settled_client h hs hc hk (hb k (List.mem_of_getElem? hk))]
  exact calls_partition s.calls _ (server_inv h).future

/-- **C111** (progress).  The handlers cannot go on for ever without new bytes, and however they start to go on, they can be completed until
none of them can go on. -/
theorem server_settles (s : ServerState) :
    (∀ f : Nat → ServerState, f 0 = s → ∃ n, ¬ HandlerStep (f n) (f (n + 1))) ∧ ∃ s', HandlerRuns s s' ∧ Settled s' := by
  constructor
  · intro f hf
    by_contra hn
    have hn : ∀ n, HandlerStep (f n) (f (n + 1)) := fun n => by
      by_contra h
      exact hn ⟨n, h⟩
    have : ∀ n, serverWork (f n) + n ≤ serverWork (f 0) := by
      intro n
      induction n with
      | zero => exact Nat.le_refl _
      | succ n ih => have := handlerStep_work (hn n); omega
    have := this (serverWork (f 0) + 1)
    omega
  · generalize hw : serverWork s = w
    induction w using Nat.strongRecOn generalizing s with
    | _ w ih =>
      by_cases hs : Settled s
      · exact ⟨s, .refl s, hs⟩
      · have : ∃ s', HandlerStep s s' := by
          by_contra hn
          exact hs fun s' h => hn ⟨s', h⟩
        obtain ⟨s1, h1⟩ := this
        obtain ⟨s2, h2, h3⟩ := ih _ (hw ▸ handlerStep_work h1) s1 rfl
        exact ⟨s2, .step h1 h2, h3⟩

/-- **C111** (survival).  The server process goes on unless a client has sent a packet that makes a server panic (C11: one whose span ID has no
parent). -/
theorem server_crashes_only {s : ServerState} (h : ServerReachable s) (hc : s.crashed = true) :
    ∃ (i : Nat) (k : SrvConn), s.conns[i]? = some k ∧ (handleConn acceptAll k.received).2 = .panicked := by
  obtain ⟨i, k, hk, hr⟩ := (server_inv h).crash.1 hc
  have hI := (server_inv h).conns i k hk
  refine ⟨i, k, hk, ?_⟩
  have hb : k.broken = false := by
    cases hb : k.broken with
    | false => rfl
    | true => rw [hI.brokenErr hb] at hr; cases hr
  have := hI.over _ hr hb [] (fun _ => rfl)
  simp only [List.append_nil] at this
  show (handleRest [] k.received).2 = _
  rw [this]

/-- **C111** (new clients).  As long as the process runs, the server can accept another client, however often `Accept` has failed. -/
theorem server_keeps_accepting {s : ServerState} (h : ServerReachable s) (hc : s.crashed = false) :
    ∃ s', ServerRuns s s' ∧ s'.conns = s.conns ++ [({} : SrvConn)] ∧ s'.calls = s.calls ∧ s'.pc = .accept := by
  have hrun : s.pc ≠ .returned := (server_inv h).running
  cases hp : s.pc with
  | returned => exact absurd hp hrun
  | accept => exact ⟨_, .step (.step (.refl s) (.accept hc hp)) (.spawn hc rfl), rfl, rfl, rfl⟩
  | connected => exact ⟨_, .step (.refl s) (.spawn hc hp), rfl, rfl, rfl⟩
  | failed => exact ⟨_, .step (.step (.step (.refl s) (.again hc hp)) (.accept hc rfl)) (.spawn hc rfl), rfl, rfl, rfl⟩

/-- **C111** (end to end).  A program's recorders share a `RemoteCollector` as in `recorded_program_shown_remotely`.  The server may have
other clients, which send anything except packets of this trace and packets that make it panic.  When the server has handled what has
arrived, and no connection broke on its side, its store shows the program's spans and events. -/
theorem recorded_program_shown_by_server {reg : Registry} (hreg : registerAll libraryEvents [] = some reg)
    {tr : Tree} (hc : CausalTree tr) (recs : SpanID → Recording) (hp : ∀ sp ∈ tr.spans, (recs sp.id).Proper sp.id)
    {c : Mutex.Config remoteMachine} (hrc : Mutex.Reachable remoteMachine {} c) (hfree : c.holder = none)
    (hsame : (forTrace tr.span.id.trace (accepted c.log)).Perm (tr.spans.flatMap fun sp => (recs sp.id).calls sp.id))
    (hlim : ∀ d ∈ attempted c.log, WithinLimit d)
    (honce : (c.shared.conns.flatMap fun k => packetsOf k.bytes).length = (accepted c.log).length)
    {s : ServerState} (hs : ServerReachable s) (hset : Settled s) (hb : ∀ k ∈ s.conns, k.broken = false) {others : List Bytes}
    (hconn : (s.conns.map SrvConn.received).Perm (c.shared.conns.map Conn.bytes ++ others))
    (hpan : ∀ b ∈ others, (handleConn acceptAll b).2 ≠ .panicked)
    (hoth : ∀ b ∈ others, ∀ d ∈ packetsOf b, d.1.trace ≠ tr.span.id.trace) :
    ∃ tr', s.store.view tr.span.id.trace = .found tr' ∧ TreeEquiv (reannotate (fun _ => []) tr') (reannotate (fun _ => []) tr) ∧
      ∀ sp ∈ tr'.spans, ∃ out, unmarshalEvents reg sp.annotations = some (out, none) ∧ AreEvents (recs sp.id).events out := by
  have hno : ∀ i op l, c.threads i ≠ .inside op l := by
    intro i op l hi
    have := (Mutex.inv_reachable hrc).1 i op l hi
    rw [hfree] at this
    cases this
  have hcl : ∀ d, Called c d → WithinLimit d := by
    rintro d (hd | ⟨i, l, hi⟩)
    · exact hlim d hd
    · exact absurd hi (hno i _ l)
  have hcr : s.crashed = false := by
    cases hcr : s.crashed with
    | false => rfl
    | true =>
      exfalso
      obtain ⟨i, k, hk, hpk⟩ := server_crashes_only hs hcr
      have hm := hconn.subset (List.mem_map_of_mem (f := SrvConn.received) (List.mem_of_getElem? hk))
      rcases List.mem_append.1 hm with hm | hm
      · obtain ⟨k', hk', e⟩ := List.mem_map.1 hm
        have := (server_never_mixes c hrc hcl k' hk' k'.bytes.length acceptAll).2
        rw [List.take_length, e] at this
        exact this hpk
      · exact hpan _ hm hpk
  have hall : (s.calls.map Prod.snd).Perm ((c.shared.conns.flatMap fun k => packetsOf k.bytes) ++ others.flatMap packetsOf) := by
    have h1 := server_settled_complete hs hset hcr hb
    have h2 := hconn.flatMap_right packetsOf
    rw [List.flatMap_append, List.flatMap_map, List.flatMap_map] at h2
    exact h1.trans h2
  have hmine := (accepted_arrive_partial c hrc hfree hlim).eq_of_length honce.symm
  refine recorded_program_shown hreg (server_calls_stored hs) hc recs hp ?_
  have e : (s.calls.map fun c => StoreOp.collect c.2.1 c.2.2) = (s.calls.map Prod.snd).map fun e => StoreOp.collect e.1 e.2 := by
    rw [List.map_map]; rfl
  rw [live_of_collects _ _ _ e]
  refine (hall.filter _).trans ?_
  rw [List.filter_append]
  have h0 : (others.flatMap packetsOf).filter (fun e => decide (e.1.trace = tr.span.id.trace)) = [] := by
    rw [List.filter_eq_nil_iff]
    intro d hd
    obtain ⟨b, hb', hdb⟩ := List.mem_flatMap.1 hd
    simpa using hoth b hb' d hdb
  rw [h0, List.append_nil]
  have : (c.shared.conns.flatMap fun k => packetsOf k.bytes) = accepted c.log := hmine.symm
  rw [this]
  exact hsame

/-- Handlers change neither what has arrived nor what is broken. -/
theorem handlerRuns_keeps {s s' : ServerState} (h : HandlerRuns s s') :
    s'.conns.map SrvConn.received = s.conns.map SrvConn.received ∧ s'.conns.map SrvConn.broken = s.conns.map SrvConn.broken := by
  induction h with
  | refl => exact ⟨rfl, rfl⟩
  | step hs _ ih =>
    have aux : ∀ {l : List SrvConn} {i : Nat} {k k' : SrvConn}, l[i]? = some k → k'.received = k.received → k'.broken = k.broken →
        (l.set i k').map SrvConn.received = l.map SrvConn.received ∧ (l.set i k').map SrvConn.broken = l.map SrvConn.broken := by
      intro l i k k' hk h1 h2
      obtain ⟨hi, hk⟩ := List.getElem?_eq_some_iff.1 hk
      subst hk
      rw [List.map_set, List.map_set, h1, h2]
      constructor
      · rw [show l[i].received = (l.map SrvConn.received)[i]'(by simpa using hi) by simp, List.set_getElem_self]
      · rw [show l[i].broken = (l.map SrvConn.broken)[i]'(by simpa using hi) by simp, List.set_getElem_self]
    rw [ih.1, ih.2]
    cases hs with
    | collect _ hk _ _ _ _ _ => exact aux hk rfl rfl
    | panic _ hk _ _ _ => exact aux hk rfl rfl
    | eof _ hk _ _ => exact aux hk rfl rfl
    | fail _ hk _ _ => exact aux hk rfl rfl

/-- **C111** (any clients).  Whatever clients send, there is a run of the server in which exactly that arrives, and no more can be done. -/
theorem server_can_serve (streams : List Bytes) : ∃ s, ServerReachable s ∧ Settled s ∧ (∀ k ∈ s.conns, k.broken = false) ∧
    s.conns.map SrvConn.received = streams := by
  have : ∃ s, ServerReachable s ∧ s.pc = .accept ∧ s.crashed = false ∧ (∀ k ∈ s.conns, k.broken = false) ∧
      s.conns.map SrvConn.received = streams := by
    induction streams using List.reverseRecOn with
    | nil => exact ⟨_, .init, rfl, rfl, (by intro k hk; cases hk), rfl⟩
    | append_singleton l b ih =>
      obtain ⟨s, h1, h2, h3, h4, h5⟩ := ih
      have r := h1.step (.accept h3 h2) |>.step (.spawn h3 rfl)
      have r' := r.step (.arrive (i := s.conns.length) (k := {}) (b := b) (by simp) rfl)
      refine ⟨_, r', rfl, h3, ?_, ?_⟩
      · intro k hk
        simp only [ServerState.setConn, List.set_append_right _ _ (Nat.le_refl _), Nat.sub_self, List.set_cons_zero, List.mem_append,
          List.mem_singleton] at hk
        rcases hk with hk | rfl
        · exact h4 k hk
        · rfl
      · simp [ServerState.setConn, h5]
  obtain ⟨s, h1, -, -, h4, h5⟩ := this
  obtain ⟨s', h6, h7⟩ := (server_settles s).2
  have hr : ServerReachable s' := by
    clear h4 h5 h7
    revert h1
    induction h6 with
    | refl => exact fun h => h
    | step hs _ ih => exact fun h => ih (h.step (.handler hs))
  refine ⟨s', hr, h7, ?_, by rw [(handlerRuns_keeps h6).1, h5]⟩
  intro k hk
  have hm : k.broken ∈ s'.conns.map SrvConn.broken := List.mem_map_of_mem hk
  rw [(handlerRuns_keeps h6).2] at hm
  obtain ⟨k', hk', e⟩ := List.mem_map.1 hm
  rw [← e, h4 k' hk']

/-- A server whose handlers all wait or have ended is settled. -/
theorem settled_of_waiting {s : ServerState}
    (h : ∀ (i : Nat) (k : SrvConn), s.conns[i]? = some k → k.result = none → readNow k.unread k.ended = none) : Settled s := by
  intro s' hs
  cases hs with
  | collect _ hk hr hrd _ _ _ => rw [h _ _ hk hr] at hrd; cases hrd
  | panic _ hk hr hrd _ => rw [h _ _ hk hr] at hrd; cases hrd
  | eof _ hk hr hrd => rw [h _ _ hk hr] at hrd; cases hrd
  | fail _ hk hr hrd => rw [h _ _ hk hr] at hrd; cases hrd

/-- The frame of a span without annotations. -/
def tinyFrame (span : ID) : Bytes := frameOf (⟨1, span, 0⟩, [])

/-- Two clients; the packet of the first arrives in two parts, before and after that of the second, and a third client sends garbage.  In
the end both packets are stored, and the hypotheses of `server_settled_complete` are met. -/
example : ∃ s, ServerReachable s ∧ Settled s ∧ s.crashed = false ∧ (∀ k ∈ s.conns, k.broken = false) ∧ s.conns.length = 3 ∧
    s.calls = [(1, (⟨1, 6, 0⟩, [])), (0, (⟨1, 5, 0⟩, []))] := by
  have h0 : readNow (tinyFrame 6) false = some (.ok (newCollectPacket ⟨1, 6, 0⟩ []) []) := by decide
  have h1 : readNow ((tinyFrame 5).take 3 ++ (tinyFrame 5).drop 3) false = some (.ok (newCollectPacket ⟨1, 5, 0⟩ []) []) := by decide
  have h2 : readNow [2, 7, 7] false = some .err := by decide
  obtain ⟨ms1, m1⟩ : ∃ ms, MemStore.new.collect ⟨1, 6, 0⟩ [] = some ms := ⟨_, rfl⟩
  obtain ⟨ms2, m2⟩ : ∃ ms, ms1.collect ⟨1, 5, 0⟩ [] = some ms := by
    obtain ⟨ms, h⟩ := collect_never_panics [.collect ⟨1, 6, 0⟩ [], .collect ⟨1, 5, 0⟩ []]
    simp only [MemStore.run, MemStore.step, m1] at h
    cases h' : ms1.collect ⟨1, 5, 0⟩ [] with
    | none => rw [h'] at h; cases h
    | some ms => exact ⟨ms, rfl⟩
  have r1 := ServerReachable.init.step (.accept rfl rfl) |>.step (.spawn rfl rfl) |>.step (.acceptErr rfl rfl) |>.step (.again rfl rfl)
    |>.step (.accept rfl rfl) |>.step (.spawn rfl rfl) |>.step (.accept rfl rfl) |>.step (.spawn rfl rfl)
  have r2 := r1.step (.arrive (i := 0) (b := (tinyFrame 5).take 3) rfl rfl)
  have r3 := r2.step (.arrive (i := 1) (b := tinyFrame 6) rfl rfl)
  have r4 := r3.step (.handler (.collect (i := 1) (p := newCollectPacket ⟨1, 6, 0⟩ []) (rest := []) (id := ⟨1, 6, 0⟩) (as := []) rfl rfl rfl h0 rfl rfl m1))
  have r5 := r4.step (.arrive (i := 0) (b := (tinyFrame 5).drop 3) rfl rfl)
  have r6 := r5.step (.handler (.collect (i := 0) (p := newCollectPacket ⟨1, 5, 0⟩ []) (rest := []) (id := ⟨1, 5, 0⟩) (as := []) rfl rfl rfl h1 rfl rfl m2))
  have r7 := r6.step (.arrive (i := 2) (b := [2, 7, 7]) rfl rfl)
  have r8 := r7.step (.handler (.fail (i := 2) rfl rfl rfl h2))
  refine ⟨_, r8, ?_, rfl, ?_, rfl, rfl⟩
  · have hn : readNow [] false = none := rfl
    refine settled_of_waiting fun i k hk hr => ?_
    match i, hk with
    | 0, hk => injection hk with hk; subst hk; exact hn
    | 1, hk => injection hk with hk; subst hk; exact hn
    | 2, hk => injection hk with hk; subst hk; cases hr
    | n + 3, hk => cases hk
  · intro k hk
    have hk : k ∈ [_, _, _] := hk
    simp only [List.mem_cons, List.not_mem_nil, or_false] at hk
    rcases hk with rfl | rfl | rfl <;> rfl

/-- A packet without a parent ends the server, whatever the other clients do. -/
example : ∃ s, ServerReachable s ∧ s.crashed = true ∧ s.conns.length = 2 := by
  have h : readNow (frame ⟨some ⟨some 1, some 1, none⟩, []⟩) false = some (.ok ⟨some ⟨some 1, some 1, none⟩, []⟩ []) := by decide
  have r := ServerReachable.init.step (.accept rfl rfl) |>.step (.spawn rfl rfl) |>.step (.accept rfl rfl) |>.step (.spawn rfl rfl)
    |>.step (.arrive (i := 1) (b := frame ⟨some ⟨some 1, some 1, none⟩, []⟩) rfl rfl)
  exact ⟨_, r.step (.handler (.panic (i := 1) rfl rfl rfl h (.inl rfl))), rfl, rfl⟩

/-! ## C112 -/

/-- **C112**.  `Start` does not return, whatever happens. -/
theorem closing_does_not_stop : ¬ ClosingStopsServer := by
  intro h
  have r : ServerReachable { ServerState.new with pc := .failed } := .step .init (.acceptErr rfl rfl)
  obtain ⟨s', h1, h2⟩ := h _ r rfl rfl
  have : ∀ {s s' : ServerState}, ServerReachable s → ServerRuns s s' → ServerReachable s' := by
    intro s s' hr hrun
    induction hrun with
    | refl => exact hr
    | step _ hs ih => exact .step ih hs
  exact (server_inv (this r h1)).running h2

/-- **C112** (the log).  While the listener is closed, the log grows without bound although nothing happens. -/
theorem closed_listener_log_partial (n : Nat) : ∃ s, ServerReachable s ∧ s.pc = .accept ∧ s.logged = n ∧ s.conns = [] ∧ s.crashed = false := by
  induction n with
  | zero => exact ⟨_, .init, rfl, rfl, rfl, rfl⟩
  | succ n ih =>
    obtain ⟨s, h1, h2, h3, h4, h5⟩ := ih
    exact ⟨_, .step (.step h1 (.acceptErr h5 h2)) (.again h5 rfl), rfl, by simp [h3], h4, h5⟩

end Appdash
