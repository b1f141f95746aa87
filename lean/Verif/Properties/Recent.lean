import Verif.Proofs.Recent

/-!
# Properties C34, C35, C60 and C61: `RecentStore`

`RecentRuns age RecentStore.new h rs`: with `MinEvictAge` `age`, over an empty `MemoryStore`, the observations `h` are
made in some concurrent execution, which is now in state `rs`.
-/

namespace Appdash

open Spec

/-- **C34**.  A trace is deleted from the underlying store only because some earlier `Collect` call decided to evict it,
and at that time it had been first seen (since its last eviction) more than `MinEvictAge` before. -/
theorem recent_evicts_old {age : Int} {h h1 h2 : List RecentObs} {rs : RecentStore} {ids : List ID} {t : ID}
    (r : RecentRuns age RecentStore.new h rs) (he : h = h1 ++ .deleted ids :: h2) (ht : t ∈ ids) :
    ∃ g1 g2 c id as s, h1 = g1 ++ .call c id as ids :: g2 ∧
      firstSeen t (g1 ++ [.call c id as []]) = some s ∧ s + age < c.cutoff := by
  obtain ⟨rs1, rs2, r1, s1⟩ := r.split he
  cases s1 with
  | delete hj =>
    have hm : ids ∈ h1.filterMap decided := r1.tracks.jobs.subset (by rw [hj]; simp)
    obtain ⟨o, ho, hd⟩ := List.mem_filterMap.1 hm
    cases o with
    | stored id as => cases hd
    | deleted ids' => cases hd
    | call c id as ev =>
      simp only [decided] at hd
      split at hd
      · cases hd
      · injection hd with hd
        subst hd
        obtain ⟨g1, g2, e⟩ := List.append_of_mem ho
        obtain ⟨rs3, rs4, r3, s3⟩ := r1.split e
        have T := r3.tracks
        refine ⟨g1, g2, c, id, as, ?_⟩
        cases s3 with
        | keep h1 => cases ht
        | evict h1 h2 =>
          obtain ⟨s, q1, q2⟩ := (mem_expired (nodup_note T.nodup _ _) t _).1 (h2.subset ht)
          refine ⟨s, e, ?_, by omega⟩
          rw [get_note, T.get] at q1
          rw [firstSeen_snoc]
          simpa [firstSeenStep] using q1

/-- **C34** (nothing else happens to the underlying store).  It is what the observed underlying calls make of an empty
store; every `Collect` call is passed on once, unless this is still to be done; and every eviction is carried out once,
unless this is still to be done. -/
theorem recent_underlying {age : Int} {h : List RecentObs} {rs : RecentStore}
    (r : RecentRuns age RecentStore.new h rs) :
    MemStore.new.run (h.filterMap underlying) = some rs.under ∧
    (h.filterMap passedOn ++ rs.pending).Perm (h.filterMap called) ∧
    (h.filterMap carriedOut ++ rs.jobs).Perm (h.filterMap decided) :=
  ⟨r.tracks.run, r.tracks.pend, r.tracks.jobs⟩

/-- The execution used below: trace 1 is collected at time 0, trace 2 at time 100, which evicts trace 1; the rest is as
given. -/
def recentStart : List RecentObs :=
  [.call ⟨0, 0, 0, 0⟩ ⟨1, 1, 0⟩ [] [], .stored ⟨1, 1, 0⟩ [], .call ⟨100, 100, 100, 100⟩ ⟨2, 2, 0⟩ [] [1],
   .stored ⟨2, 2, 0⟩ []]

theorem recentStart_runs : ∃ rs, RecentRuns 10 RecentStore.new recentStart rs ∧ rs.pending = [] ∧ rs.jobs = [[1]] ∧
    rs.created = [(2, 100)] ∧ rs.lastEvicted = some 100 := by
  have e1 : (MemStore.new.collect ⟨1, 1, 0⟩ []).isSome = true := by decide_cbv
  obtain ⟨m1, e1⟩ := Option.isSome_iff_exists.1 e1
  have e2 : ((MemStore.new.collect ⟨1, 1, 0⟩ []).bind fun m => m.collect ⟨2, 2, 0⟩ []).isSome = true := by decide_cbv
  obtain ⟨m2, e2⟩ := Option.isSome_iff_exists.1 e2
  rw [e1] at e2
  refine ⟨_, RecentRuns.snoc (h := [_, _, _]) (RecentRuns.snoc (h := [_, _]) (RecentRuns.snoc (h := [_])
    (RecentRuns.snoc (h := []) .nil
      (RecentStep.evict (evicted := []) (by decide) (by decide)))
      (RecentStep.store (a := []) (b := []) rfl e1))
      (RecentStep.evict (evicted := [1])
      (show RecentStore.sinceEvicted (some 0) 100 > 10 by decide)
      (show [1].Perm (RecentStore.expired (RecentStore.note [(1, 0)] 2 100) (100 - 10)) by decide)))
      (RecentStep.store (a := []) (b := []) rfl e2), rfl, rfl, rfl, rfl⟩

/-- Trace 1 is deleted in an execution. -/
example : ∃ rs, RecentRuns 10 RecentStore.new (recentStart ++ [.deleted [1]]) rs := by
  obtain ⟨rs, r, -, hj, -⟩ := recentStart_runs
  exact ⟨_, r.snoc (.delete (a := []) (b := []) hj)⟩

/-- **C35**.  With a clock that does not go backwards, and `δ` bounding the time between the two clock readings of an
eviction, every trace tracked after a `Collect` call had been first seen at most twice `MinEvictAge`, plus `δ`, before
that call checked its clock. -/
theorem recent_bounds_age {age δ start : Int} (ha : 0 ≤ age) (ha' : age < 2 ^ 63 - 1) {h : List RecentObs}
    {rs : RecentStore} {c : Readings} {id : SpanID} {as : List Annotation} {ev : List ID}
    (r : RecentRuns age RecentStore.new (h ++ [.call c id as ev]) rs)
    (m : Spec.Monotone start (h ++ [.call c id as ev]))
    (hd : ∀ c' id' as' ev', .call c' id' as' ev' ∈ h ++ [.call c id as ev] → c'.evict - c'.cutoff ≤ δ) :
    ∀ t s, firstSeen t (h ++ [.call c id as ev]) = some s → c.since ≤ s + 2 * age + δ := by
  intro t s hs
  rw [← r.tracks.get] at hs
  generalize hh : h ++ [RecentObs.call c id as ev] = hist at r
  cases r with
  | nil => simp at hh
  | snoc r1 s1 =>
    obtain ⟨rfl, hh'⟩ := List.append_inj' hh rfl
    injection hh' with hh'
    subst hh'
    obtain ⟨m1, m2⟩ := monotone_snoc m
    exact ((r1.ages ha ha' m1 (fun c' id' as' ev' hm => hd c' id' as' ev' (by simp [hm]))).step ha ha' s1 m2
      (hd c id as ev (by simp))).2 t s hs

/-- **C35** (the traces tracked).  They are those that `firstSeen` gives a time: every other trace is forgotten. -/
theorem recent_tracks {age : Int} {h : List RecentObs} {rs : RecentStore} (r : RecentRuns age RecentStore.new h rs) :
    ∀ t, rs.created.get t = firstSeen t h := r.tracks.get

/-- The hypotheses are met by the execution above; `δ` is 0. -/
example : Spec.Monotone 0 recentStart ∧
    (∀ c id as ev, .call c id as ev ∈ recentStart → c.evict - c.cutoff ≤ 0) ∧ firstSeen 1 recentStart = none ∧
    firstSeen 2 recentStart = some 100 := by
  refine ⟨by simp [recentStart, Spec.Monotone], ?_, by decide, by decide⟩
  intro c id as ev hm
  simp [recentStart] at hm
  rcases hm with ⟨rfl, -⟩ | ⟨rfl, -⟩ <;> decide

/-- The bound is tight: with `MinEvictAge` 10, trace 2 is first seen at time 1 and still tracked at time 20, after an
eviction at time 10 that it was too young for. -/
example : ∃ rs, RecentRuns 10 RecentStore.new
    [.call ⟨0, 0, 0, 0⟩ ⟨1, 1, 0⟩ [] [], .call ⟨1, 1, 1, 1⟩ ⟨2, 2, 0⟩ [] [], .call ⟨11, 11, 11, 11⟩ ⟨3, 3, 0⟩ [] [1],
     .call ⟨21, 21, 21, 21⟩ ⟨3, 3, 0⟩ [] []] rs ∧ rs.created.get 2 = some 1 :=
  ⟨_, RecentRuns.snoc (h := [_, _, _]) (RecentRuns.snoc (h := [_, _]) (RecentRuns.snoc (h := [_])
    (RecentRuns.snoc (h := []) .nil
      (RecentStep.evict (evicted := []) (by decide) (by decide)))
      (RecentStep.keep (by decide)))
      (RecentStep.evict (evicted := [1]) (by decide) (by decide)))
      (RecentStep.keep (by decide)), rfl⟩

/-! ## New spans of an evicted trace -/

/-- **C60**, as stated: when nothing is left to be done, a trace for which `Collect` was called after its last eviction
had been decided is found. -/
def RecentKeepsNew : Prop :=
  ∀ (age : Int) (h : List RecentObs) (rs : RecentStore), RecentRuns age RecentStore.new h rs →
    Spec.Monotone 0 h → rs.pending = [] → rs.jobs = [] →
    ∀ t, recentCalls t h ≠ [] → rs.under.view t ≠ .notFound

/-- **C60** is false: the goroutine that deletes trace 1 runs after a new span of trace 1 was collected. -/
theorem recent_keeps_new_false : ¬ RecentKeepsNew := by
  intro hf
  obtain ⟨rs, r, hp, hj, hc, hl⟩ := recentStart_runs
  obtain ⟨ms, e1, e2⟩ := run_collect r.tracks.run ⟨1, 3, 0⟩ []
  have r1 := r.snoc (RecentStep.keep (c := ⟨101, 101, 101, 101⟩) (id := ⟨1, 3, 0⟩) (as := [])
    (by rw [hl]; decide))
  have r2 := r1.snoc (RecentStep.store (a := []) (b := []) (by simp only [hp, List.nil_append]) e1)
  have r3 := r2.snoc (RecentStep.delete (a := []) (b := []) hj)
  refine hf _ _ _ r3 (by simp [recentStart, Spec.Monotone]) rfl rfl 1 (by decide) ?_
  have := run_view r3.tracks.run 1
  rcases this with ⟨-, h2⟩ | ⟨h1, -⟩
  · exact h2
  · exact absurd (by decide) h1

/-- **C61**, as stated: when nothing is left to be done, every trace that is found is tracked, so that a later eviction
will find it. -/
def RecentForgetsNothing : Prop :=
  ∀ (age : Int) (h : List RecentObs) (rs : RecentStore), RecentRuns age RecentStore.new h rs →
    Spec.Monotone 0 h → rs.pending = [] → rs.jobs = [] →
    ∀ t, rs.under.view t ≠ .notFound → firstSeen t h ≠ none

/-- **C61** is false, even if `Collect` is never called concurrently: a `Collect` call for an old trace evicts that trace,
and the goroutine deletes it before the span arrives. -/
theorem recent_forgets_nothing_false : ¬ RecentForgetsNothing := by
  intro hf
  have e0 : (MemStore.new.collect ⟨1, 1, 0⟩ []).isSome = true := by decide_cbv
  obtain ⟨m0, e0⟩ := Option.isSome_iff_exists.1 e0
  have r1 : RecentRuns 10 RecentStore.new [.call ⟨0, 0, 0, 0⟩ ⟨1, 1, 0⟩ [] []] _ :=
    RecentRuns.snoc (h := []) .nil (RecentStep.evict (evicted := []) (by decide) (by decide))
  have r2 := r1.snoc (RecentStep.store (a := []) (b := []) rfl e0)
  have r3 := r2.snoc (RecentStep.evict (c := ⟨100, 100, 100, 100⟩) (id := ⟨1, 2, 1⟩) (as := []) (evicted := [1])
    (show RecentStore.sinceEvicted (some 0) 100 > 10 by decide)
      (show [1].Perm (RecentStore.expired (RecentStore.note [(1, 0)] 1 100) (100 - 10)) by decide))
  have r4 := r3.snoc (RecentStep.delete (a := []) (b := []) rfl)
  obtain ⟨ms, e1, -⟩ := run_collect r4.tracks.run ⟨1, 2, 1⟩ []
  have r5 := r4.snoc (RecentStep.store (a := []) (b := []) rfl e1)
  refine hf _ _ _ r5 (by simp [Spec.Monotone]) rfl rfl 1 ?_ (by decide)
  have := run_view r5.tracks.run 1
  rcases this with ⟨h1, -⟩ | ⟨-, T, tr, -, -, h2, -⟩
  · exact absurd h1 (by decide)
  · rw [h2]; simp

/-- **C60** and **C61**, partial.  If no `Collect` call for trace `t` overlaps an eviction of `t`, then when nothing is
left to be done, `Trace` returns for `t` exactly what a store would return that only got the `Collect` calls for `t` made
since its last eviction was decided, in some order.  Missing: calls that overlap an eviction of the same trace, for which
both properties are false. -/
theorem recent_exact_partial {age : Int} {h : List RecentObs} {rs : RecentStore} {t : ID}
    (r : RecentRuns age RecentStore.new h rs) (a : Apart t h) (hp : rs.pending = []) (hj : rs.jobs = []) :
    ∃ (L : List Entry) (ms : MemStore), L.Perm (recentCalls t h) ∧ MemStore.new.run (L.map fun e => .collect e.1 e.2) = some ms ∧
      rs.under.view t = ms.view t := by
  rcases r.settled a with ⟨-, S⟩ | ⟨S, -⟩
  · have e : ofTrace t rs.pending = [] := by rw [hp]; rfl
    rw [e, List.append_nil] at S
    have hL : ∀ e ∈ live t (h.filterMap underlying), e.1.trace = t := by
      have : ∀ (ops : List StoreOp) (L : List Entry), (∀ e ∈ L, e.1.trace = t) →
          ∀ e ∈ ops.foldl (liveStep t) L, e.1.trace = t := by
        intro ops
        induction ops with
        | nil => intro L hL; exact hL
        | cons op ops ih =>
          intro L hL
          refine ih _ ?_
          cases op with
          | collect id as =>
            intro e he
            simp only [liveStep] at he
            split at he
            · rename_i ht
              rcases List.mem_append.1 he with he | he
              · exact hL e he
              · rw [List.mem_singleton] at he; subst he; exact ht
            · exact hL e he
          | delete ids =>
            intro e he
            simp only [liveStep] at he
            split at he
            · cases he
            · exact hL e he
      exact this _ [] (by simp)
    obtain ⟨ms, e1, -⟩ := sim_run sim_new ((live t (h.filterMap underlying)).map fun e => StoreOp.collect e.1 e.2)
    refine ⟨_, ms, S, e1, view_of_live r.tracks.run e1 t ?_⟩
    have := live_collects t _ hL []
    rw [List.nil_append] at this
    exact this.symm
  · rw [hj] at S
    exact absurd rfl S

/-- **C60** and **C61**, partial, in short: under the same hypotheses, a trace is found exactly if it is tracked, which
is the case exactly if `Collect` was called for it after its last eviction was decided. -/
theorem recent_found_partial {age : Int} {h : List RecentObs} {rs : RecentStore} {t : ID}
    (r : RecentRuns age RecentStore.new h rs) (a : Apart t h) (hp : rs.pending = []) (hj : rs.jobs = []) :
    (rs.under.view t ≠ .notFound ↔ firstSeen t h ≠ none) ∧ (firstSeen t h ≠ none ↔ recentCalls t h ≠ []) := by
  have hs : firstSeen t h ≠ none ↔ recentCalls t h ≠ [] := not_congr (firstSeen_calls t h)
  refine ⟨?_, hs⟩
  rw [hs]
  rcases r.settled a with ⟨-, S⟩ | ⟨S, -⟩
  · have e : ofTrace t rs.pending = [] := by rw [hp]; rfl
    rw [e, List.append_nil] at S
    rcases run_view r.tracks.run t with ⟨h1, h2⟩ | ⟨h1, T, tr, -, -, h2, -⟩
    · rw [h1] at S
      rw [h2, ← List.nil_perm.1 S]
      simp
    · rw [h2]
      constructor
      · intro _ h0
        rw [h0] at S
        exact h1 (List.perm_nil.1 S)
      · intro _ hc
        cases hc
  · rw [hj] at S
    exact absurd rfl S

/-- The hypotheses are met by an execution that evicts trace 1 and collects it again. -/
example : ∃ h rs, RecentRuns 10 RecentStore.new h rs ∧ Apart 1 h ∧ rs.pending = [] ∧ rs.jobs = [] ∧
    h = recentStart ++ [.deleted [1], .call ⟨101, 101, 101, 101⟩ ⟨1, 3, 0⟩ [] [], .stored ⟨1, 3, 0⟩ []] := by
  obtain ⟨rs, r, hp, hj, hc, hl⟩ := recentStart_runs
  have r1 := r.snoc (RecentStep.delete (a := []) (b := []) hj)
  have r2 := r1.snoc (RecentStep.keep (c := ⟨101, 101, 101, 101⟩) (id := ⟨1, 3, 0⟩) (as := []) (by simp only [hl]; decide))
  obtain ⟨ms, e1, e2⟩ := run_collect r2.tracks.run ⟨1, 3, 0⟩ []
  have r3 := r2.snoc (RecentStep.store (a := []) (b := []) (by simp only [hp, List.nil_append]) e1)
  exact ⟨_, _, r3, apart_of_all (by decide), rfl, rfl, rfl⟩

end Appdash
