import Verif.Proofs.Recent
import Verif.Spec.RecentTrace

/-! # Lemmas about the traces of a program in a `RecentStore` -/

namespace Appdash

open Spec RecentStore

/-- What a call evicts had been first seen more than `age` before. -/
theorem RecentRuns.evicts_old {age : Int} {h h1 h2 : List RecentObs} {rs : RecentStore} {c : Readings} {id : SpanID} {as : List Annotation}
    {ev : List ID} {t : ID} (r : RecentRuns age RecentStore.new h rs) (he : h = h1 ++ .call c id as ev :: h2) (ht : t ∈ ev) :
    ∃ s, firstSeen t (h1 ++ [.call c id as []]) = some s ∧ s + age < c.cutoff := by
  obtain ⟨rs1, rs2, r1, s1⟩ := r.split he
  have T := r1.tracks
  cases s1 with
  | keep h1 => cases ht
  | evict h1 h2 =>
    obtain ⟨s, q1, q2⟩ := (mem_expired (nodup_note T.nodup _ _) t _).1 (h2.subset ht)
    refine ⟨s, ?_, by omega⟩
    rw [get_note, T.get] at q1
    rw [firstSeen_snoc]
    simpa [firstSeenStep] using q1

/-- An execution can be cut anywhere. -/
theorem RecentRuns.prefix_run {age : Int} {rs rs' : RecentStore} {h1 h2 : List RecentObs} (r : RecentRuns age rs (h1 ++ h2) rs') :
    ∃ rs1, RecentRuns age rs h1 rs1 := by
  cases h2 with
  | nil => rw [List.append_nil] at r; exact ⟨_, r⟩
  | cons o h2 =>
    obtain ⟨rs1, -, r1, -⟩ := r.split rfl
    exact ⟨rs1, r1⟩

/-- If `t` was never evicted, the time it was first seen is that of the first call for it. -/
theorem firstSeen_first {t : ID} : ∀ {h : List RecentObs} {s : Int}, (∀ c id as ev, .call c id as ev ∈ h → t ∉ ev) →
    firstSeen t h = some s → ∃ h1 c id as ev h2, h = h1 ++ .call c id as ev :: h2 ∧ id.trace = t ∧
      forTrace t (h1.filterMap called) = [] ∧ c.seen = s := by
  intro h
  induction h using List.reverseRecOn with
  | nil => intro s _ hs; cases hs
  | append_singleton h o ih =>
    intro s hn hs
    have hn' : ∀ c id as ev, .call c id as ev ∈ h → t ∉ ev := fun c id as ev hm => hn c id as ev (by simp [hm])
    have lift : firstSeen t h = some s → ∃ h1 c id as ev h2, h ++ [o] = h1 ++ .call c id as ev :: h2 ∧ id.trace = t ∧
        forTrace t (h1.filterMap called) = [] ∧ c.seen = s := by
      intro hs
      obtain ⟨h1, c, id, as, ev, h2, rfl, q⟩ := ih hn' hs
      exact ⟨h1, c, id, as, ev, h2 ++ [o], by simp, q⟩
    rw [firstSeen_snoc] at hs
    cases o with
    | stored id as => exact lift hs
    | deleted ids => exact lift hs
    | call c id as ev =>
      simp only [firstSeenStep] at hs
      rw [if_neg (hn c id as ev (by simp))] at hs
      split at hs
      · rename_i hid
        cases hf : firstSeen t h with
        | some s' =>
          rw [hf] at hs
          exact lift (by rw [hf]; exact hs)
        | none =>
          rw [hf] at hs
          injection hs with hs
          refine ⟨h, c, id, as, ev, [], rfl, hid, ?_, hs⟩
          rw [forTrace, List.filter_eq_nil_iff]
          intro e he
          obtain ⟨o, ho, hoe⟩ := List.mem_filterMap.1 he
          simp only [decide_eq_true_eq]
          intro het
          cases o with
          | stored id as => cases hoe
          | deleted ids => cases hoe
          | call c0 id0 as0 ev0 =>
            injection hoe with hoe
            subst hoe
            obtain ⟨l1, l2, rfl⟩ := List.append_of_mem ho
            have key : ∀ (l : List RecentObs) (x : Int), (∀ c id as ev, .call c id as ev ∈ l → t ∉ ev) →
                ∃ y, l.foldl (firstSeenStep t) (some x) = some y := by
              intro l
              induction l with
              | nil => exact fun x _ => ⟨x, rfl⟩
              | cons o l ih =>
                intro x hl
                rw [List.foldl_cons]
                have hl' : ∀ c id as ev, .call c id as ev ∈ l → t ∉ ev := fun c id as ev hm => hl c id as ev (by simp [hm])
                cases o with
                | stored id as => exact ih x hl'
                | deleted ids => exact ih x hl'
                | call c id as ev =>
                  simp only [firstSeenStep]
                  rw [if_neg (hl c id as ev (by simp))]
                  split
                  · exact ih _ hl'
                  · exact ih _ hl'
            obtain ⟨y, hy⟩ := key l2 ((firstSeen t l1).getD c0.seen) (fun c id as ev hm => hn' c id as ev (by simp [hm]))
            rw [firstSeen, List.foldl_append, List.foldl_cons] at hf
            simp only [firstSeenStep] at hf
            rw [if_neg (hn' c0 id0 as0 ev0 (by simp)), if_pos het] at hf
            have : (l2.foldl (firstSeenStep t) (some ((firstSeen t l1).getD c0.seen))) = none := hf
            rw [hy] at this
            cases this
      · exact lift hs

theorem young_prefix {age : Int} {t : ID} {h1 h2 : List RecentObs} (y : Young age t (h1 ++ h2)) : Young age t h1 := by
  intro g1 c id as ev g2 e hid hn c' id' as' ev' hm
  refine y g1 c id as ev (g2 ++ h2) (by rw [e]; simp) hid hn c' id' as' ev' ?_
  rw [← List.cons_append]
  exact List.mem_append_left _ hm

/-- A young trace is not evicted. -/
theorem RecentRuns.young_kept {age : Int} {t : ID} : ∀ {h : List RecentObs} {rs : RecentStore},
    RecentRuns age RecentStore.new h rs → Young age t h → ∀ c id as ev, .call c id as ev ∈ h → t ∉ ev := by
  intro h
  induction h using List.reverseRecOn with
  | nil => intro rs _ _ c id as ev hm; cases hm
  | append_singleton h o ih =>
    intro rs r y
    obtain ⟨rs1, r1⟩ := r.prefix_run
    have hn := ih r1 (young_prefix y)
    intro c id as ev hm ht
    rcases List.mem_append.1 hm with hm | hm
    · exact hn c id as ev hm ht
    · simp only [List.mem_singleton] at hm
      subst hm
      obtain ⟨s, q1, q2⟩ := r.evicts_old rfl ht
      have hev : ev ≠ [] := by rintro rfl; cases ht
      obtain ⟨g1, c0, id0, as0, ev0, g2, e, hid, hf, hs⟩ := firstSeen_first (by
        intro c id as ev hm
        rcases List.mem_append.1 hm with hm | hm
        · exact hn c id as ev hm
        · simp only [List.mem_singleton] at hm
          cases hm
          simp) q1
      rcases List.eq_nil_or_concat g2 with rfl | ⟨g2, o2, rfl⟩
      · obtain ⟨e1, e2⟩ := List.append_inj' e rfl
        subst e1
        cases e2
        have := y h c id as ev [] rfl hid hf c id as ev (by simp) hev
        omega
      · have e' : h ++ [RecentObs.call c id as []] = (g1 ++ .call c0 id0 as0 ev0 :: g2) ++ [o2] := by rw [e]; simp
        obtain ⟨rfl, -⟩ := List.append_inj' e' rfl
        have := y g1 c0 id0 as0 ev0 (g2 ++ [.call c id as ev]) (by simp) hid hf c id as ev (by simp) hev
        omega

/-- Nor is it deleted. -/
theorem RecentRuns.young_undeleted {age : Int} {t : ID} {h : List RecentObs} {rs : RecentStore}
    (r : RecentRuns age RecentStore.new h rs) (y : Young age t h) : ∀ ids, .deleted ids ∈ h → t ∉ ids := by
  intro ids hm ht
  have : ids ∈ h.filterMap decided := r.tracks.jobs.subset (List.mem_append_left _ (List.mem_filterMap.2 ⟨_, hm, rfl⟩))
  obtain ⟨o, ho, hd⟩ := List.mem_filterMap.1 this
  cases o with
  | stored id as => cases hd
  | deleted ids' => cases hd
  | call c id as ev =>
    simp only [decided] at hd
    split at hd
    · cases hd
    · injection hd with hd
      subst hd
      exact r.young_kept y c id as ev ho ht

theorem forTrace_append (t : ID) (a b : List Entry) : forTrace t (a ++ b) = forTrace t a ++ forTrace t b := List.filter_append ..

/-- Without deletions of `t`, the calls since are all the underlying calls. -/
theorem live_undeleted {t : ID} : ∀ (h : List RecentObs), (∀ ids, .deleted ids ∈ h → t ∉ ids) →
    ∀ ops, live t (ops ++ h.filterMap underlying) = live t ops ++ forTrace t (h.filterMap passedOn) := by
  intro h
  induction h using List.reverseRecOn with
  | nil => intro _ ops; simp [forTrace]
  | append_singleton h o ih =>
    intro hn ops
    have ih := ih (fun ids hm => hn ids (by simp [hm])) ops
    simp only [live] at ih ⊢
    cases o with
    | call c id as ev =>
      rw [fm_none h rfl, fm_none h rfl]; exact ih
    | stored id as =>
      rw [fm_some (f := underlying) h rfl, fm_some (f := passedOn) h rfl, ← List.append_assoc, List.foldl_append, ih, forTrace_append,
        ← List.append_assoc]
      simp only [List.foldl_cons, List.foldl_nil, liveStep, forTrace, List.filter_cons, List.filter_nil, decide_eq_true_eq]
      split <;> simp
    | deleted ids =>
      rw [fm_some (f := underlying) h rfl, fm_none h rfl, ← List.append_assoc, List.foldl_append, ih]
      simp only [List.foldl_cons, List.foldl_nil, liveStep]
      rw [if_neg (hn ids (by simp))]

/-- A deletion after which nothing of the trace arrives leaves nothing. -/
theorem live_deleted {t : ID} {h : List RecentObs} {ids : List ID} (hm : .deleted ids ∈ h) (ht : t ∈ ids)
    (hn : forTrace t (h.filterMap passedOn) = []) (ops : List StoreOp) : live t (ops ++ h.filterMap underlying) = [] := by
  have key : ∀ (g : List RecentObs), forTrace t (g.filterMap passedOn) = [] → (g.filterMap underlying).foldl (liveStep t) [] = [] := by
    intro g
    induction g with
    | nil => intro _; rfl
    | cons o g ih =>
      intro hg
      cases o with
      | call c id as ev => exact ih hg
      | stored id as =>
        simp only [List.filterMap_cons, passedOn, forTrace, List.filter_cons] at hg
        split at hg
        · cases hg
        · rename_i hne
          simp only [decide_eq_true_eq] at hne
          simp only [List.filterMap_cons, underlying, List.foldl_cons, liveStep, if_neg hne]
          exact ih hg
      | deleted ids =>
        simp only [List.filterMap_cons, underlying, List.foldl_cons, liveStep, ite_self]
        exact ih hg
  obtain ⟨l1, l2, rfl⟩ := List.append_of_mem hm
  rw [List.filterMap_append, forTrace_append] at hn
  have hn2 := (List.append_eq_nil_iff.1 hn).2
  simp only [live, List.filterMap_append, List.filterMap_cons, underlying, List.foldl_append, List.foldl_cons, liveStep, if_pos ht]
  exact key l2 hn2

/-- When no call for `t` is under way, the underlying calls for `t` are the calls for `t`. -/
theorem RecentRuns.arrived {age : Int} {t : ID} {h : List RecentObs} {rs : RecentStore} (r : RecentRuns age RecentStore.new h rs)
    (hp : ∀ e ∈ rs.pending, e.1.trace ≠ t) : (forTrace t (h.filterMap passedOn)).Perm (forTrace t (h.filterMap called)) := by
  have := (r.tracks.pend).filter (fun e => decide (e.1.trace = t))
  rw [List.filter_append] at this
  have e : rs.pending.filter (fun e => decide (e.1.trace = t)) = [] := by
    rw [List.filter_eq_nil_iff]
    intro e he
    simpa using hp e he
  rw [e, List.append_nil] at this
  exact this

end Appdash
