import Verif.Spec.Distributed
import Verif.Properties.CollectorServer
import Verif.Proofs.OpenTracingShown

/-!
# Lemmas about several processes that send to one server
-/

namespace Appdash
open Spec

theorem processDone_called {c : Mutex.Config remoteMachine} (h : ProcessDone c) : ∀ d, Called c d → WithinLimit d := by
  rintro d (hd | ⟨i, l, hi⟩)
  · exact h.limit d hd
  · have := (Mutex.inv_reachable h.reach).1 i _ l hi
    rw [h.free] at this
    cases this

theorem processDone_arrived {c : Mutex.Config remoteMachine} (h : ProcessDone c) :
    (c.shared.conns.flatMap fun k => packetsOf k.bytes) = accepted c.log :=
  ((accepted_arrive_partial c h.reach h.free h.limit).eq_of_length h.once.symm).symm

theorem serverDone_alive {s : ServerState} {procs : List (Mutex.Config remoteMachine)} {t : ID} (h : ServerDone s procs t)
    (hp : ∀ c ∈ procs, ProcessDone c) : s.crashed = false := by
  obtain ⟨others, hconn, hpan, -⟩ := h.conns
  cases hcr : s.crashed with
  | false => rfl
  | true =>
    exfalso
    obtain ⟨i, k, hk, hpk⟩ := server_crashes_only h.reach hcr
    have hm := hconn.subset (List.mem_map_of_mem (f := SrvConn.received) (List.mem_of_getElem? hk))
    rcases List.mem_append.1 hm with hm | hm
    · obtain ⟨c, hc, hm⟩ := List.mem_flatMap.1 hm
      obtain ⟨k', hk', e⟩ := List.mem_map.1 hm
      have := (server_never_mixes c (hp c hc).reach (processDone_called (hp c hc)) k' hk' k'.bytes.length acceptAll).2
      rw [List.take_length, e] at this
      exact this hpk
    · exact hpan _ hm hpk

/-- The calls on the store. -/
theorem server_live (s : ServerState) (t : ID) :
    live t (s.calls.map fun c => StoreOp.collect c.2.1 c.2.2) = forTrace t (s.calls.map Prod.snd) := by
  have e : (s.calls.map fun c => StoreOp.collect c.2.1 c.2.2) = (s.calls.map Prod.snd).map fun e => StoreOp.collect e.1 e.2 := by
    rw [List.map_map]; rfl
  rw [live_of_collects _ _ _ e]

/-- The store gets what the processes' collectors accepted for the trace, in some order. -/
theorem serverDone_live {s : ServerState} {procs : List (Mutex.Config remoteMachine)} {t : ID} (h : ServerDone s procs t)
    (hp : ∀ c ∈ procs, ProcessDone c) :
    (live t (s.calls.map fun c => StoreOp.collect c.2.1 c.2.2)).Perm (forTrace t (procs.flatMap fun c => accepted c.log)) := by
  obtain ⟨others, hconn, -, hoth⟩ := h.conns
  have hall : (s.calls.map Prod.snd).Perm ((procs.flatMap fun c => accepted c.log) ++ others.flatMap packetsOf) := by
    have h1 := server_settled_complete h.reach h.settled (serverDone_alive h hp) h.unbroken
    have h2 := hconn.flatMap_right packetsOf
    rw [List.flatMap_append, List.flatMap_map, List.flatMap_assoc] at h2
    have h3 : (procs.flatMap fun c => (c.shared.conns.map Conn.bytes).flatMap packetsOf) = procs.flatMap fun c => accepted c.log := by
      rw [List.flatMap_def, List.flatMap_def]
      congr 1
      refine List.map_congr_left fun c hc => ?_
      rw [List.flatMap_map]
      exact processDone_arrived (hp c hc)
    rw [h3] at h2
    exact h1.trans h2
  rw [server_live]
  refine (hall.filter _).trans ?_
  rw [List.filter_append]
  have h0 : (others.flatMap packetsOf).filter (fun e => decide (e.1.trace = t)) = [] := by
    rw [List.filter_eq_nil_iff]
    intro d hd
    obtain ⟨b, hb', hdb⟩ := List.mem_flatMap.1 hd
    simpa using hoth b hb' d hdb
  rw [h0, List.append_nil]
  exact .refl _

/-- A goroutine can call an operation and finish it while the others do nothing. -/
theorem call_alone {S Op R : Type} {M : Mutex.Machine S Op R} {s0 : S} {c : Mutex.Config M} (h : Mutex.Reachable M s0 c) (hfree : c.holder = none)
    (hidle : ∀ i, c.threads i = .idle) {op : Op} {s' : S} {r : R} (hr : Mutex.Runs M (M.start op) c.shared s' r) :
    ∃ c', Mutex.Reachable M s0 c' ∧ c'.holder = none ∧ (∀ i, c'.threads i = .idle) ∧ c'.shared = s' ∧ c'.log = c.log ++ [(0, op, r)] := by
  have inner : ∀ {l : M.L} {s s' : S} {r : R}, Mutex.Runs M l s s' r → ∀ c : Mutex.Config M, Mutex.Reachable M s0 c → c.shared = s →
      c.threads 0 = .inside op l → (∀ i, i ≠ 0 → c.threads i = .idle) →
      ∃ c', Mutex.Reachable M s0 c' ∧ c'.holder = none ∧ (∀ i, c'.threads i = .idle) ∧ c'.shared = s' ∧ c'.log = c.log ++ [(0, op, r)] := by
    intro l s s' r hr
    induction hr with
    | done hs =>
      intro c hc hsh h0 hi
      subst hsh
      refine ⟨_, hc.step (.finish c 0 op _ _ _ h0 hs), rfl, ?_, rfl, rfl⟩
      intro i
      simp only [Mutex.setThread]
      split
      · rfl
      · rename_i hn; exact hi i hn
    | more hs _ ih =>
      intro c hc hsh h0 hi
      subst hsh
      have r := hc.step (.micro c 0 op _ _ _ h0 hs)
      have x := ih _ r rfl (by simp [Mutex.setThread]) fun i hn => by simp [Mutex.setThread, hn, hi i hn]
      exact x
  have r1 := h.step (.call c 0 op (hidle 0))
  have r2 := r1.step (.lock _ 0 op (by simp [Mutex.setThread]) hfree)
  have x := inner hr _ r2 rfl (by simp [Mutex.setThread]) fun i hn => by simp [Mutex.setThread, hn, hidle i]
  exact x

/-- A collector whose connection works sends everything it is given. -/
theorem remote_can_send (ds : List Delivery) (hl : ∀ d ∈ ds, WithinLimit d) :
    ∃ c, ProcessDone c ∧ accepted c.log = ds ∧ (ds ≠ [] → c.shared.conns.map Conn.bytes = [sent ds]) := by
  suffices h : ∃ c, Mutex.Reachable remoteMachine {} c ∧ c.holder = none ∧ (∀ i, c.threads i = .idle) ∧ accepted c.log = ds ∧
      attempted c.log = ds ∧ (ds = [] → c.shared.conns = [] ∧ c.shared.pconn = none) ∧
      (ds ≠ [] → c.shared.pconn = some 0 ∧ c.shared.conns = [⟨sent ds, false, ds⟩]) by
    obtain ⟨c, h1, h2, h3, h4, h5, h6, h7⟩ := h
    have hlim : ∀ d ∈ attempted c.log, WithinLimit d := by rw [h5]; exact hl
    refine ⟨c, ⟨h1, h2, hlim, ?_⟩, h4, fun hne => by rw [(h7 hne).2]; rfl⟩
    rw [h4]
    by_cases hne : ds = []
    · rw [(h6 hne).1, hne]; rfl
    · rw [(h7 hne).2]
      simp only [List.flatMap_cons, List.flatMap_nil, List.append_nil, packetsOf]
      have := handleConn_shape ds hl []
      rw [List.append_nil] at this
      rw [this]
      rfl
  induction ds using List.reverseRecOn with
  | nil => exact ⟨_, .init, rfl, fun _ => rfl, rfl, rfl, fun _ => ⟨rfl, rfl⟩, fun h => absurd rfl h⟩
  | append_singleton ds d ih =>
    obtain ⟨c, h1, h2, h3, h4, h5, h6, h7⟩ := ih fun d hd => hl d (List.mem_append_left _ hd)
    suffices key : ∃ s', Mutex.Runs remoteMachine (RemotePC.check d) c.shared s' true ∧ s'.pconn = some 0 ∧
        s'.conns = [⟨sent (ds ++ [d]), false, ds ++ [d]⟩] by
      obtain ⟨s', hr, hp, hcn⟩ := key
      obtain ⟨c', k1, k2, k3, k4, k5⟩ := call_alone h1 h2 h3 (op := RemoteCall.collect d) hr
      refine ⟨c', k1, k2, k3, ?_, ?_, fun h => absurd h (by simp), fun _ => ⟨by rw [k4]; exact hp, by rw [k4]; exact hcn⟩⟩
      · rw [k5, accepted, List.filterMap_append]
        rw [accepted] at h4
        rw [h4]; rfl
      · rw [k5, attempted, List.filterMap_append]
        rw [attempted] at h5
        rw [h5]; rfl
    have hs : sent (ds ++ [d]) = sent ds ++ encVarint (marshal (newCollectPacket d.1 d.2)).length ++ marshal (newCollectPacket d.1 d.2) := by
      simp [sent, frameOf, frame]
    revert h6 h7
    cases c.shared with
    | mk conns pconn w n =>
      intro h6 h7
      by_cases hne : ds = []
      · obtain ⟨e1, e2⟩ := h6 hne
        simp only at e1 e2
        subst e1 e2
        refine ⟨⟨[⟨sent (ds ++ [d]), false, ds ++ [d]⟩], some 0, w + 1, n + 1⟩, ?_, rfl, rfl⟩
        refine .more (RemoteStep.checkNone _ d rfl) (.more (RemoteStep.disconnect _ d) (.more (RemoteStep.dialOk _ d)
          (.more (RemoteStep.len2Ok _ d 0 none ⟨encVarint (marshal (newCollectPacket d.1 d.2)).length, false, []⟩ (by simp [Remote.closeConn, Conn.write]))
            (.done ?_))))
        have := RemoteStep.msg2Ok ⟨[⟨encVarint (marshal (newCollectPacket d.1 d.2)).length, false, []⟩], some 0, w + 1, n + 1⟩ d 0 none
          ⟨sent [d], false, []⟩ (by simp [Conn.write, sent, frameOf, frame])
        rw [hne]
        exact this
      · obtain ⟨e1, e2⟩ := h7 hne
        simp only at e1 e2
        subst e1 e2
        refine ⟨⟨[⟨sent (ds ++ [d]), false, ds ++ [d]⟩], some 0, w + 1, n⟩, ?_, rfl, rfl⟩
        refine .more (RemoteStep.checkSome _ d 0 rfl) (.more (RemoteStep.len1Ok _ d 0 none
          ⟨sent ds ++ encVarint (marshal (newCollectPacket d.1 d.2)).length, false, ds⟩ (by simp [Conn.write])) (.done ?_))
        exact RemoteStep.msg1Ok ⟨[⟨sent ds ++ encVarint (marshal (newCollectPacket d.1 d.2)).length, false, ds⟩], some 0, w + 1, n⟩ d 0 none
          ⟨sent (ds ++ [d]), false, ds⟩ (by simp [Conn.write, hs])

/-! ## Several OpenTracing recorders -/

/-- What two recorders do, one recorder could have done. -/
theorem ot_merge {env : OTEnv} {v1 v2 : Bool} {s1 s2 : OTState} (h1 : OTReach env v1 s1) (h2 : OTReach env v2 s2) :
    ∃ s, OTReach env v1 s ∧ s.threads = s1.threads ++ s2.threads ∧
      s.calls = s1.calls ++ s2.calls.map fun c => { c with thread := s1.threads.length + c.thread } := by
  induction h2 with
  | new => exact ⟨s1, h1, by simp [OTState.new], by simp [OTState.new]⟩
  | step _ hs ih =>
    obtain ⟨s, r, e1, e2⟩ := ih
    cases hs with
    | start sp acts h => exact ⟨_, r.step (.start s sp acts h), by simp [e1], by simp [e2]⟩
    | collect i sp as acts answer h =>
      have hi : s.threads[s1.threads.length + i]? = some (sp, .collect as :: acts) := by
        rw [e1, List.getElem?_append_right (by omega), Nat.add_sub_cancel_left]
        exact h
      refine ⟨_, r.step (.collect s _ sp as acts answer hi), ?_, ?_⟩
      · simp [e1, List.set_append_right]
      · simp [e2]
    | report i sp e acts now as answer h hm =>
      have hi : s.threads[s1.threads.length + i]? = some (sp, .report e :: acts) := by
        rw [e1, List.getElem?_append_right (by omega), Nat.add_sub_cancel_left]
        exact h
      refine ⟨_, r.step (.report s _ sp e acts now as answer hi hm), ?_, ?_⟩
      · simp [e1, List.set_append_right]
      · simp [e2]
    | log i sp e acts h =>
      have hi : s.threads[s1.threads.length + i]? = some (sp, .log e :: acts) := by
        rw [e1, List.getElem?_append_right (by omega), Nat.add_sub_cancel_left]
        exact h
      refine ⟨_, r.step (.log s _ sp e acts hi), ?_, ?_⟩
      · simp [e1, List.set_append_right]
      · have w : ∀ (s : OTState) e, (s.writeLog e).calls = s.calls := by
          intro s e
          unfold OTState.writeLog
          split
          · rfl
          · split <;> rfl
        simp [w, e2]

/-- And so for any number of recorders. -/
theorem ot_merge_all {env : OTEnv} (ss : List OTState) (h : ∀ s ∈ ss, ∃ v, OTReach env v s) :
    ∃ s, OTReach env false s ∧ s.threads = ss.flatMap OTState.threads ∧ collectedBy s = ss.flatMap collectedBy ∧
      ∀ c ∈ s.calls, ∃ s' ∈ ss, ∃ c' ∈ s'.calls, c.answer = c'.answer := by
  induction ss using List.reverseRecOn with
  | nil => exact ⟨_, .new, rfl, rfl, fun c hc => by cases hc⟩
  | append_singleton ss s2 ih =>
    obtain ⟨s1, r1, e1, e2, e3⟩ := ih fun s hs => h s (List.mem_append_left _ hs)
    obtain ⟨v, r2⟩ := h s2 (by simp)
    obtain ⟨s, r, f1, f2⟩ := ot_merge r1 r2
    refine ⟨s, r, by rw [f1, e1]; simp, ?_, ?_⟩
    · rw [List.flatMap_append, ← e2]
      simp only [collectedBy, f2, List.map_append, List.map_map, List.flatMap_cons, List.flatMap_nil, List.append_nil]
      rfl
    · intro c hc
      rw [f2] at hc
      rcases List.mem_append.1 hc with hc | hc
      · obtain ⟨s', hs', x⟩ := e3 c hc
        exact ⟨s', List.mem_append_left _ hs', x⟩
      · obtain ⟨c', hc', rfl⟩ := List.mem_map.1 hc
        exact ⟨s2, by simp, c', hc', rfl⟩

/-! ## The order of a span's packets -/

/-- At most one of the lists has packets for the span. -/
def OneHas (id : SpanID) (Ls : List (List Delivery)) : Prop :=
  Ls.Pairwise fun a b => id ∉ a.map Prod.fst ∨ id ∉ b.map Prod.fst

theorem annotationsOf_missing {id : SpanID} {L : List Delivery} (h : id ∉ L.map Prod.fst) : Chunked.annotationsOf id L = [] := by
  induction L with
  | nil => rfl
  | cons d L ih =>
    simp only [List.map_cons, List.mem_cons, not_or] at h
    rw [Chunked.annotationsOf_cons, if_neg (Ne.symm h.1), ih h.2]
    rfl

theorem annotationsOf_flatten_perm {id : SpanID} {Ls Ls' : List (List Delivery)} (hp : Ls.Perm Ls') (ho : OneHas id Ls) :
    Chunked.annotationsOf id Ls.flatten = Chunked.annotationsOf id Ls'.flatten := by
  have hsym : ∀ {a b : List Delivery}, id ∉ a.map Prod.fst ∨ id ∉ b.map Prod.fst → id ∉ b.map Prod.fst ∨ id ∉ a.map Prod.fst :=
    fun h => h.symm
  induction hp with
  | nil => rfl
  | cons a _ ih =>
    rw [List.flatten_cons, List.flatten_cons, Chunked.annotationsOf_append, Chunked.annotationsOf_append, ih (List.pairwise_cons.1 ho).2]
  | swap a b l =>
    simp only [List.flatten_cons, Chunked.annotationsOf_append]
    rcases (List.pairwise_cons.1 ho).1 a (by simp) with h | h
    · rw [annotationsOf_missing h]; simp
    · rw [annotationsOf_missing h]; simp
  | trans h1 _ ih1 ih2 => exact (ih1 ho).trans (ih2 ((h1.pairwise_iff hsym).1 ho))

/-- If only one connection has packets for the span, its annotations are stored in the order of that connection. -/
theorem annotationsOf_server {s : ServerState} (h : ServerReachable s) (hs : Settled s) (hc : s.crashed = false)
    (hb : ∀ k ∈ s.conns, k.broken = false) {id : SpanID} (ho : OneHas id (s.conns.map fun k => packetsOf k.received)) :
    Chunked.annotationsOf id (s.calls.map Prod.snd) = Chunked.annotationsOf id (s.conns.map fun k => packetsOf k.received).flatten := by
  have hfrom : ∀ (i : Nat) k, s.conns[i]? = some k → s.callsFrom i = packetsOf k.received := fun i k hk =>
    server_settled_client h hs hc hk (hb k (List.mem_of_getElem? hk))
  have hfut := (server_inv h).future
  by_cases hx : ∃ i : Nat, ∃ k, s.conns[i]? = some k ∧ id ∈ (packetsOf k.received).map Prod.fst
  · obtain ⟨i, k, hk, hid⟩ := hx
    have hother : ∀ j : Nat, j ≠ i → ∀ k', s.conns[j]? = some k' → id ∉ (packetsOf k'.received).map Prod.fst := by
      intro j hji k' hk' hid'
      have g : ∀ (n : Nat) x, s.conns[n]? = some x → (s.conns.map fun k => packetsOf k.received)[n]? = some (packetsOf x.received) := by
        intro n x hx; rw [List.getElem?_map, hx]; rfl
      rcases Nat.lt_or_gt_of_ne hji with hlt | hlt
      · obtain ⟨l1, e1⟩ := List.getElem?_eq_some_iff.1 (g j k' hk')
        obtain ⟨l2, e2⟩ := List.getElem?_eq_some_iff.1 (g i k hk)
        rcases (List.pairwise_iff_getElem.1 ho) j i l1 l2 hlt with h | h
        · rw [e1] at h; exact h hid'
        · rw [e2] at h; exact h hid
      · obtain ⟨l1, e1⟩ := List.getElem?_eq_some_iff.1 (g j k' hk')
        obtain ⟨l2, e2⟩ := List.getElem?_eq_some_iff.1 (g i k hk)
        rcases (List.pairwise_iff_getElem.1 ho) i j l2 l1 hlt with h | h
        · rw [e2] at h; exact h hid
        · rw [e1] at h; exact h hid'
    have hleft : Chunked.annotationsOf id (s.calls.map Prod.snd) = Chunked.annotationsOf id (s.callsFrom i) := by
      have key : ∀ cs : List (Nat × Delivery), (∀ c ∈ cs, c ∈ s.calls) →
          Chunked.annotationsOf id (cs.map Prod.snd) = Chunked.annotationsOf id ((cs.filter (·.1 == i)).map Prod.snd) := by
        intro cs
        induction cs with
        | nil => intro _; rfl
        | cons c cs ih =>
          intro hcs
          have ih' := ih fun c hc => hcs c (List.mem_cons_of_mem _ hc)
          by_cases hci : c.1 = i
          · rw [List.filter_cons_of_pos (by simpa using hci), List.map_cons, List.map_cons, Chunked.annotationsOf_cons,
              Chunked.annotationsOf_cons, ih']
          · rw [List.filter_cons_of_neg (by simpa using hci), List.map_cons, Chunked.annotationsOf_cons, ih', if_neg, List.nil_append]
            intro e
            have hmem := hcs c List.mem_cons_self
            obtain ⟨k', hk'⟩ : ∃ k', s.conns[c.1]? = some k' := ⟨_, List.getElem?_eq_getElem (hfut c hmem)⟩
            refine hother c.1 hci k' hk' ?_
            rw [← hfrom c.1 k' hk']
            exact List.mem_map.2 ⟨c.2, List.mem_map.2 ⟨c, List.mem_filter.2 ⟨hmem, by simp⟩, rfl⟩, e⟩
      exact key s.calls fun c hc => hc
    rw [hleft, hfrom i k hk]
    have hright : ∀ (l : List SrvConn) (n : Nat), l[n]? = some k →
        (∀ j : Nat, j ≠ n → ∀ k', l[j]? = some k' → id ∉ (packetsOf k'.received).map Prod.fst) →
        Chunked.annotationsOf id (packetsOf k.received) = Chunked.annotationsOf id (l.map fun k => packetsOf k.received).flatten := by
      intro l
      induction l with
      | nil => intro n h; simp at h
      | cons x l ih =>
        intro n hn ho
        rw [List.map_cons, List.flatten_cons, Chunked.annotationsOf_append]
        cases n with
        | zero =>
          simp at hn
          subst hn
          rw [annotationsOf_missing (L := (l.map fun k => packetsOf k.received).flatten), List.append_nil]
          intro hm
          obtain ⟨d, hd, e⟩ := List.mem_map.1 hm
          obtain ⟨p, hp, hdp⟩ := List.mem_flatten.1 hd
          obtain ⟨k', hk', rfl⟩ := List.mem_map.1 hp
          obtain ⟨j, hj⟩ := List.getElem?_of_mem hk'
          exact ho (j + 1) (by omega) k' (by simpa using hj) (List.mem_map.2 ⟨d, hdp, e⟩)
        | succ n =>
          rw [annotationsOf_missing (ho 0 (by omega) x (by simp)), List.nil_append]
          exact ih n (by simpa using hn) fun j hj k' hk' => ho (j + 1) (by omega) k' (by simpa using hk')
    exact hright s.conns i hk hother
  · have h1 : id ∉ (s.calls.map Prod.snd).map Prod.fst := by
      intro hm
      rw [List.map_map] at hm
      obtain ⟨c, hc', e⟩ := List.mem_map.1 hm
      obtain ⟨k', hk'⟩ : ∃ k', s.conns[c.1]? = some k' := ⟨_, List.getElem?_eq_getElem (hfut c hc')⟩
      refine hx ⟨c.1, k', hk', ?_⟩
      rw [← hfrom c.1 k' hk']
      exact List.mem_map.2 ⟨c.2, List.mem_map.2 ⟨c, List.mem_filter.2 ⟨hc', by simp⟩, rfl⟩, e⟩
    have h2 : id ∉ (s.conns.map fun k => packetsOf k.received).flatten.map Prod.fst := by
      intro hm
      obtain ⟨d, hd, e⟩ := List.mem_map.1 hm
      obtain ⟨p, hp, hdp⟩ := List.mem_flatten.1 hd
      obtain ⟨k', hk', rfl⟩ := List.mem_map.1 hp
      obtain ⟨j, hj⟩ := List.getElem?_of_mem hk'
      exact hx ⟨j, k', hj, List.mem_map.2 ⟨d, hdp, e⟩⟩
    rw [annotationsOf_missing h1, annotationsOf_missing h2]

end Appdash
