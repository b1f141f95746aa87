import Verif.Spec.Serve
import Verif.Proofs.Recent
import Verif.Proofs.WriteReturns

/-! # Servers over restarts -/

namespace Appdash

open Spec RecentStore

/-! ## The two maps of a store have the same traces -/

/-- A trace without root has no spans. -/
def Paired (ms : MemStore) : Prop := ∀ t, ms.trace.get t = none → ms.span.get t = none

theorem fixRoot_trace {ms ms' : MemStore} {id : SpanID} {s r r' : Addr} (h : ms.fixRoot id s r = some (ms', r'))
    (hr : ms.trace.get id.trace ≠ none) : ms'.trace.get id.trace ≠ none := by
  unfold MemStore.fixRoot at h
  split at h
  · simp only at h
    split at h
    · cases h
    · rename_i ms2 h2
      injection h with h
      injection h with h _
      rw [← h]
      show (MemStore.insert ms2 s r).trace.get id.trace ≠ none
      rw [insert_trace, reattach_trace h2, AMap.get_set]
      simp
  · injection h with h
    injection h with h _
    rw [← h]; exact hr

theorem attach_trace {ms ms' : MemStore} {id : SpanID} {s : Addr} (h : ms.attach id s = some ms') :
    ms'.trace.get id.trace ≠ none := by
  have main : ∀ (ms1 : MemStore) (r : Addr), ms1.trace.get id.trace ≠ none →
      (match ms1.fixRoot id s r with
      | none => none
      | some (ms, root) =>
        let ms := if id.isRoot = false ∧ s ≠ root then ms.insert root s else ms
        if s ≠ root then ms.reattachChildren s root else some ms) = some ms' →
      ms'.trace.get id.trace ≠ none := by
    intro ms1 r hr h1
    cases hf : ms1.fixRoot id s r with
    | none => rw [hf] at h1; cases h1
    | some q =>
      obtain ⟨ms2, r2⟩ := q
      rw [hf] at h1
      have hk2 := fixRoot_trace hf hr
      simp only at h1
      have hk3 : (if id.isRoot = false ∧ s ≠ r2 then ms2.insert r2 s else ms2).trace.get id.trace ≠ none := by
        split
        · rw [insert_trace]; exact hk2
        · exact hk2
      split at h1
      · rw [reattach_trace h1]; exact hk3
      · injection h1 with h1
        rw [← h1]; exact hk3
  unfold MemStore.attach at h
  cases ht : ms.trace.get id.trace with
  | some r =>
    simp only [ht] at h
    exact main ms r (by rw [ht]; simp) h
  | none =>
    simp only [ht] at h
    exact main { ms with trace := ms.trace.set id.trace s } s (by rw [AMap.get_set]; simp) h

theorem Paired.step {ms ms' : MemStore} (L : Loose ms) (P : Paired ms) {op : StoreOp} (h : ms.step op = some ms') : Paired ms' := by
  intro t ht
  cases op with
  | collect id as =>
    obtain ⟨ms1, e, -, O⟩ := collect_loose L id as
    have e' : ms.collect id as = some ms' := h
    rw [e'] at e
    injection e with e
    subst e
    by_cases hne : t = id.trace
    · subst hne
      cases hg : AMap.get ((ms.span.get id.trace).getD []) id.span with
      | some s =>
        simp only [MemStore.collect, hg] at e'
        injection e' with e'
        subst e'
        exact P _ ht
      | none =>
        simp only [MemStore.collect, hg] at e'
        exact absurd ht (attach_trace e')
    · rw [O.trace t hne] at ht
      rw [O.span t hne]
      exact P t ht
  | delete ids =>
    have e' : ms.delete ids = ms' := by injection h
    subst e'
    obtain ⟨-, -, h3, h4⟩ := delete_get ids ms t
    rw [h3] at ht
    rw [h4]
    split
    · rfl
    · rename_i hn
      rw [if_neg hn] at ht
      exact P t ht

theorem trace_of_notFound {ms : MemStore} {t : ID} (h : ms.view t = .notFound) : ms.trace.get t = none := by
  cases hg : ms.trace.get t with
  | none => rfl
  | some a =>
    unfold MemStore.view MemStore.tracePtr at h
    rw [hg] at h
    simp only at h
    split at h <;> cases h

theorem notFound_of_trace {ms : MemStore} {t : ID} (h : ms.trace.get t = none) : ms.view t = .notFound := by
  simp [MemStore.view, MemStore.tracePtr, h]

theorem MemStore.Reachable.paired {ms : MemStore} (h : ms.Reachable) : Paired ms := by
  induction h with
  | new => intro t _; rfl
  | step op r e ih => exact ih.step r.sound.loose e
  | @readFrom ms dst d r hw r' ih1 ih2 =>
    intro t ht
    rcases readFrom_view r.sound hw dst t with ⟨h1, -⟩ | ⟨tr, -, h2⟩
    · have h1 := trace_of_notFound h1
      exact (readFrom_absent hw dst h1 (ih1 t h1)).2
    · rw [notFound_of_trace ht] at h2
      cases h2

/-- An absent trace of a reachable store is in good order. -/
theorem MemStore.Reachable.absent {ms : MemStore} (h : ms.Reachable) {t : ID} (ht : ms.view t = .notFound) :
    SimT ms t (ATrace.ofLive []) :=
  ⟨trace_of_notFound ht, h.paired t (trace_of_notFound ht)⟩

/-! ## A `RecentStore` over any store -/

theorem run_loose_snoc {ms ms1 ms2 : MemStore} {ops : List StoreOp} {op : StoreOp} (h : ms.run ops = some ms1)
    (h2 : ms1.step op = some ms2) : ms.run (ops ++ [op]) = some ms2 := by
  rw [run_append, h]
  simp [MemStore.run, h2]

/-- A `RecentStore` over any store makes the same observable steps as one over an empty store. -/
theorem RecentRuns.over {age : Int} {ms0 : MemStore} {h : List RecentObs} {rs0 rs : RecentStore}
    (r : RecentRuns age rs0 h rs) (e0 : rs0 = { RecentStore.new with under := ms0 }) :
    ∃ rs', RecentRuns age RecentStore.new h rs' ∧ rs'.created = rs.created ∧ rs'.lastEvicted = rs.lastEvicted ∧
      rs'.pending = rs.pending ∧ rs'.jobs = rs.jobs ∧ ms0.run (h.filterMap underlying) = some rs.under := by
  induction r with
  | nil => subst e0; exact ⟨RecentStore.new, .nil, rfl, rfl, rfl, rfl, rfl⟩
  | @snoc rs1 rs2 h o r s ih =>
    obtain ⟨rs', r', h1, h2, h3, h4, h5⟩ := ih
    cases s with
    | keep k =>
      rename_i c id as
      refine ⟨_, r'.snoc (.keep (c := c) (id := id) (as := as) (by rw [h2]; exact k)), ?_, h2, ?_, h4, ?_⟩
      · simp only [h1]
      · simp only [h3]
      · rw [fm_none h rfl]; exact h5
    | evict k p =>
      rename_i c id as ev
      refine ⟨_, r'.snoc (.evict (c := c) (id := id) (as := as) (evicted := ev) (by rw [h2]; exact k) (by rw [h1]; exact p)),
        ?_, rfl, ?_, ?_, ?_⟩
      · simp only [h1]
      · simp only [h3]
      · simp only [h4]
      · rw [fm_none h rfl]; exact h5
    | store k e =>
      rename_i a b id as ms
      obtain ⟨ms', e1, e2⟩ := run_collect r'.tracks.run id as
      refine ⟨_, r'.snoc (.store (a := a) (b := b) (by rw [h3]; exact k) e1), h1, h2, rfl, h4, ?_⟩
      rw [List.filterMap_append]
      exact run_loose_snoc h5 e
    | delete k =>
      rename_i a b ids
      refine ⟨_, r'.snoc (.delete (a := a) (b := b) (by rw [h4]; exact k)), h1, h2, h3, rfl, ?_⟩
      rw [List.filterMap_append]
      exact run_loose_snoc (op := .delete ids) h5 rfl

/-! ## Servers -/

/-- What holds in every server. -/
structure Server.Sound (sv : Server) : Prop where
  store : sv.rs.under.Reachable
  file : ∀ d, sv.file = some d → ∃ ms : MemStore, ms.Reachable ∧ ms.Writes d

theorem Server.Sound.initial {sv : Server} (S : sv.Sound) : (Server.initialStore sv.file).Reachable := by
  cases hf : sv.file with
  | none => exact .new
  | some d =>
    obtain ⟨ms, h1, h2⟩ := S.file d hf
    exact .readFrom h1 h2 .new

theorem Server.Sound.step {age : Int} {sv sv' : Server} {o : ServeObs} (S : sv.Sound) (s : ServeStep age sv o sv') : sv'.Sound := by
  cases s with
  | recent s =>
    refine ⟨?_, S.file⟩
    cases s with
    | keep => exact S.store
    | evict => exact S.store
    | store _ e => exact .step (.collect _ _) S.store e
    | delete => exact .step (.delete _) S.store rfl
  | persist hw =>
    refine ⟨S.store, ?_⟩
    intro d hd
    injection hd with hd
    subst hd
    exact ⟨_, S.store, hw⟩
  | restart => exact ⟨S.initial, S.file⟩

theorem ServeRuns.sound {age : Int} {sv sv' : Server} {h : List ServeObs} (r : ServeRuns age sv h sv') (S : sv.Sound) : sv'.Sound := by
  induction r with
  | nil => exact S
  | snoc _ s ih => exact ih.step s

theorem Server.start_sound : Server.start.Sound := ⟨.new, by intro d hd; cases hd⟩

theorem ServeRuns.trans {age : Int} {a b c : Server} {h h' : List ServeObs} (r : ServeRuns age a h b) (r' : ServeRuns age b h' c) :
    ServeRuns age a (h ++ h') c := by
  induction r' with
  | nil => simpa using r
  | snoc _ s ih =>
    rw [← List.append_assoc]
    exact ih.snoc s

/-- Between restarts, the `RecentStore` runs. -/
theorem ServeRuns.recent {age : Int} {sv sv' : Server} {h : List ServeObs} (r : ServeRuns age sv h sv') (hr : .restart ∉ h) :
    RecentRuns age sv.rs (recentPart h) sv'.rs := by
  induction r with
  | nil => exact .nil
  | @snoc sv1 sv2 h o r s ih =>
    have ih := ih (fun hm => hr (by simp [hm]))
    rw [recentPart, List.filterMap_append]
    cases s with
    | recent s => exact ih.snoc s
    | persist =>
      simp only [List.filterMap_cons, List.filterMap_nil, List.append_nil]
      exact ih
    | restart => exact absurd (by simp) hr

/-- Without `persist`, the file stays. -/
theorem ServeRuns.file {age : Int} {sv sv' : Server} {h : List ServeObs} (r : ServeRuns age sv h sv') (hr : .persist ∉ h) :
    sv'.file = sv.file := by
  induction r with
  | nil => rfl
  | @snoc sv1 sv2 h o r s ih =>
    have ih := ih (fun hm => hr (by simp [hm]))
    cases s with
    | recent s => exact ih
    | persist => exact absurd (by simp) hr
    | restart => exact ih

/-! ## Restored traces -/

theorem gobAnnotation_idem (a : Annotation) : gobAnnotation (gobAnnotation a) = gobAnnotation a := by
  obtain ⟨k, v⟩ := a
  simp only [gobAnnotation]
  split <;> simp_all

mutual
theorem gobTree_idem : ∀ t : Tree, gobTree (gobTree t) = gobTree t
  | .node s ts => by
    simp only [gobTree, gobTrees_idem ts, List.map_map, Function.comp_def, gobAnnotation_idem]
theorem gobTrees_idem : ∀ ts : List Tree, gobTrees (gobTrees ts) = gobTrees ts
  | [] => rfl
  | t :: ts => by simp only [gobTrees, gobTree_idem t, gobTrees_idem ts]
end

/-- Trace `t` was restored as `tr` and has not been seen since. -/
structure Restored (t : ID) (tr : Tree) (sv : Server) : Prop where
  gob : gobTree tr = tr
  view : sv.rs.under.view t = .found tr
  file : (Server.initialStore sv.file).view t = .found tr
  nodup : sv.rs.created.keys.Nodup
  created : sv.rs.created.get t = none
  pending : ∀ e ∈ sv.rs.pending, e.1.trace ≠ t
  jobs : ∀ ids ∈ sv.rs.jobs, t ∉ ids

theorem step_view_other {ms ms' : MemStore} (L : Loose ms) {op : StoreOp} {t : ID} {tr : Tree} (e : ms.step op = some ms')
    (hc : ¬ Collects t [op]) (hd : ¬ Deletes t [op]) (hv : ms.view t = .found tr) : ms'.view t = .found tr := by
  obtain ⟨ms1, e1, h1⟩ := run_view_other [op] L hc hd hv
  simp only [MemStore.run, e] at e1
  injection e1 with e1
  subst e1
  exact h1

theorem Restored.step {age : Int} {t : ID} {tr : Tree} {sv sv' : Server} {o : ServeObs} (S : sv.Sound) (R : Restored t tr sv)
    (s : ServeStep age sv o sv') (hn : ∀ c id as ev, o = .recent (.call c id as ev) → id.trace ≠ t) :
    Restored t tr sv' ∧ ∀ ids, o = .recent (.deleted ids) → t ∉ ids := by
  cases s with
  | recent s =>
    cases s with
    | keep k =>
      rename_i c id as
      have hid := hn c id as [] rfl
      refine ⟨⟨R.gob, R.view, R.file, nodup_note R.nodup _ _, ?_, ?_, R.jobs⟩, by intro ids h; cases h⟩
      · simp only
        rw [get_note, if_neg hid]; exact R.created
      · intro e he
        rcases List.mem_append.1 he with he | he
        · exact R.pending e he
        · rw [List.mem_singleton] at he; subst he; exact hid
    | evict k p =>
      rename_i c id as ev
      have hid := hn c id as ev rfl
      have hg : (note sv.rs.created id.trace c.seen).get t = none := by rw [get_note, if_neg hid]; exact R.created
      have hev : t ∉ ev := by
        intro hm
        obtain ⟨s, q1, -⟩ := (mem_expired (nodup_note R.nodup _ _) t _).1 (p.subset hm)
        rw [hg] at q1
        cases q1
      refine ⟨⟨R.gob, R.view, R.file, nodup_forget _ (nodup_note R.nodup _ _), ?_, ?_, ?_⟩, by intro ids h; cases h⟩
      · simp only
        rw [get_forget, if_neg hev]; exact hg
      · intro e he
        rcases List.mem_append.1 he with he | he
        · exact R.pending e he
        · rw [List.mem_singleton] at he; subst he; exact hid
      · intro ids hi
        simp only at hi
        split at hi
        · exact R.jobs ids hi
        · rcases List.mem_append.1 hi with hi | hi
          · exact R.jobs ids hi
          · rw [List.mem_singleton] at hi; subst hi; exact hev
    | store k e =>
      rename_i a b id as ms
      have hid : id.trace ≠ t := R.pending (id, as) (by rw [k]; simp)
      refine ⟨⟨R.gob, ?_, R.file, R.nodup, R.created, ?_, R.jobs⟩, by intro ids h; cases h⟩
      · refine step_view_other S.store.sound.loose (op := .collect id as) e ?_ ?_ R.view
        · rintro ⟨id', as', h1, h2⟩
          rw [List.mem_singleton] at h1
          injection h1 with h1
          subst h1
          exact hid h2
        · rintro ⟨ids, h1, -⟩
          rw [List.mem_singleton] at h1
          cases h1
      · intro e he
        refine R.pending e ?_
        rw [k]
        simp only [List.mem_append, List.mem_cons] at he ⊢
        grind
    | delete k =>
      rename_i a b ids
      have hid : t ∉ ids := R.jobs ids (by rw [k]; simp)
      refine ⟨⟨R.gob, ?_, R.file, R.nodup, R.created, R.pending, ?_⟩, ?_⟩
      · refine step_view_other S.store.sound.loose (op := .delete ids) rfl ?_ ?_ R.view
        · rintro ⟨id', as', h1, -⟩
          rw [List.mem_singleton] at h1
          cases h1
        · rintro ⟨ids', h1, h2⟩
          rw [List.mem_singleton] at h1
          injection h1 with h1
          subst h1
          exact hid h2
      · intro i hi
        refine R.jobs i ?_
        rw [k]
        simp only [List.mem_append, List.mem_cons] at hi ⊢
        grind
      · intro ids' h
        injection h with h
        injection h with h
        subst h
        exact hid
  | persist hw =>
    rename_i d
    refine ⟨⟨R.gob, R.view, ?_, R.nodup, R.created, R.pending, R.jobs⟩, by intro ids h; cases h⟩
    rcases readFrom_view S.store.sound hw MemStore.new t with ⟨h1, -⟩ | ⟨tr', h1, h2⟩
    · rw [R.view] at h1; cases h1
    · rw [R.view] at h1
      injection h1 with h1
      subst h1
      rw [R.gob] at h2
      exact h2
  | restart =>
    exact ⟨⟨R.gob, R.file, R.file, by simp [RecentStore.new, AMap.keys], rfl, (by intro e he; cases he), (by intro e he; cases he)⟩,
      by intro ids h; cases h⟩

theorem Restored.run {age : Int} {t : ID} {tr : Tree} {sv sv' : Server} {h : List ServeObs} (r : ServeRuns age sv h sv')
    (S : sv.Sound) (R : Restored t tr sv) (hn : ∀ c id as ev, .recent (.call c id as ev) ∈ h → id.trace ≠ t) :
    Restored t tr sv' ∧ ∀ ids, .recent (.deleted ids) ∈ h → t ∉ ids := by
  induction r with
  | nil => exact ⟨R, by intro ids h; cases h⟩
  | @snoc sv1 sv2 h o r s ih =>
    obtain ⟨R1, d1⟩ := ih (fun c id as ev hm => hn c id as ev (by simp [hm]))
    obtain ⟨R2, d2⟩ := R1.step (r.sound S) s (fun c id as ev ho => hn c id as ev (by simp [ho]))
    refine ⟨R2, ?_⟩
    intro ids hm
    rcases List.mem_append.1 hm with hm | hm
    · exact d1 ids hm
    · exact d2 ids (List.mem_singleton.1 hm).symm

/-- What is found after a restart was restored. -/
theorem restored_of_restart {age : Int} {t : ID} {tr : Tree} {sv sv' : Server} (S : sv.Sound) (s : ServeStep age sv .restart sv')
    (hv : sv'.rs.under.view t = .found tr) : Restored t tr sv' := by
  cases s with
  | restart =>
    refine ⟨?_, hv, hv, by simp [RecentStore.new, AMap.keys], rfl, (by intro e he; cases he), (by intro e he; cases he)⟩
    cases hf : sv.file with
    | none => rw [hf] at hv; cases hv
    | some d =>
      obtain ⟨ms, h1, h2⟩ := S.file d hf
      rw [hf] at hv
      rcases readFrom_view h1.sound h2 MemStore.new t with ⟨-, h4⟩ | ⟨tr', -, h4⟩
      · rw [show (MemStore.new.readFrom (some d)).1.view t = .found tr from hv] at h4; cases h4
      · rw [show (MemStore.new.readFrom (some d)).1.view t = .found tr from hv] at h4
        injection h4 with h4
        rw [h4, gobTree_idem]

end Appdash
