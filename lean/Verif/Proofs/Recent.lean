import Verif.Proofs.Limit
import Verif.Spec.Recent

/-! # Invariants of `RecentStore` -/

namespace Appdash

open Spec RecentStore

theorem get_note (m : AMap ID Int) (t t' : ID) (now : Int) :
    (note m t now).get t' = if t = t' then some ((m.get t').getD now) else m.get t' := by
  unfold note
  by_cases e : t = t'
  · subst e
    cases h : m.get t with
    | none => simp
    | some v => simp [h]
  · cases h : m.get t with
    | none => simp [AMap.get_set_ne _ _ e, e]
    | some v => simp [e]

theorem get_forget (t : ID) : ∀ (ids : List ID) (m : AMap ID Int),
    (forget m ids).get t = if t ∈ ids then none else m.get t
  | [], m => by simp [forget]
  | i :: ids, m => by
    have := get_forget t ids (m.del i)
    unfold forget at this ⊢
    rw [List.foldl_cons, this, AMap.get_del]
    by_cases h : t ∈ ids
    · simp [h]
    · by_cases e : i = t
      · simp [e]
      · have : t ≠ i := fun h => e h.symm
        simp [h, e, this]

theorem nodup_note {m : AMap ID Int} (h : m.keys.Nodup) (t : ID) (now : Int) : (note m t now).keys.Nodup := by
  unfold note
  cases m.get t with
  | none => exact AMap.nodup_keys_set _ _ _ h
  | some v => exact h

theorem nodup_forget : ∀ (ids : List ID) {m : AMap ID Int}, m.keys.Nodup → (forget m ids).keys.Nodup
  | [], _, h => h
  | i :: ids, m, h => nodup_forget ids (AMap.nodup_keys_del m i h)

theorem mem_expired {m : AMap ID Int} (h : m.keys.Nodup) (t : ID) (x : Int) :
    t ∈ expired m x ↔ ∃ s, m.get t = some s ∧ s < x := by
  unfold expired
  simp only [List.mem_map, List.mem_filter, decide_eq_true_eq]
  constructor
  · rintro ⟨⟨t', s⟩, ⟨h1, h2⟩, rfl⟩
    exact ⟨s, AMap.get_of_mem h h1, h2⟩
  · rintro ⟨s, h1, h2⟩
    exact ⟨(t, s), ⟨AMap.mem_of_get h1, h2⟩, rfl⟩

/-- The map of times is what the history says. -/
structure Tracks (rs : RecentStore) (h : List RecentObs) : Prop where
  nodup : rs.created.keys.Nodup
  get : ∀ t, rs.created.get t = firstSeen t h
  run : MemStore.new.run (h.filterMap underlying) = some rs.under
  pend : (h.filterMap passedOn ++ rs.pending).Perm (h.filterMap called)
  jobs : (h.filterMap carriedOut ++ rs.jobs).Perm (h.filterMap decided)

theorem firstSeen_snoc (t : ID) (h : List RecentObs) (o : RecentObs) :
    firstSeen t (h ++ [o]) = firstSeenStep t (firstSeen t h) o := by
  simp [firstSeen]

theorem recentCalls_snoc (t : ID) (h : List RecentObs) (o : RecentObs) :
    recentCalls t (h ++ [o]) = recentStep t (recentCalls t h) o := by
  simp [recentCalls]

theorem perm_snoc_of {α : Type} {a b c : List α} {x : α} (h : (a ++ b).Perm c) : (a ++ (b ++ [x])).Perm (c ++ [x]) := by
  rw [← List.append_assoc]
  exact h.append_right _

theorem perm_move {α : Type} {a b c d : List α} {x : α} (h : (a ++ (b ++ x :: c)).Perm d) :
    ((a ++ [x]) ++ (b ++ c)).Perm d := by
  refine List.Perm.trans ?_ h
  rw [List.append_assoc]
  refine List.Perm.append_left a ?_
  simpa using (List.perm_middle (a := x) (l₁ := b) (l₂ := c)).symm

theorem fm_none {α β : Type} {f : α → Option β} {o : α} (h : List α) (e : f o = none) :
    (h ++ [o]).filterMap f = h.filterMap f := by
  rw [List.filterMap_append, List.filterMap_cons, e]
  simp

theorem fm_some {α β : Type} {f : α → Option β} {o : α} (h : List α) {x : β} (e : f o = some x) :
    (h ++ [o]).filterMap f = h.filterMap f ++ [x] := by
  rw [List.filterMap_append, List.filterMap_cons, e]
  simp

theorem Tracks.step {age : Int} {rs rs' : RecentStore} {h : List RecentObs} {o : RecentObs} (T : Tracks rs h)
    (s : RecentStep age rs o rs') : Tracks rs' (h ++ [o]) := by
  cases s with
  | keep h1 =>
    rename_i c id as
    refine ⟨nodup_note T.nodup _ _, ?_, ?_, ?_, ?_⟩
    · intro t
      simp only
      rw [get_note, firstSeen_snoc, T.get]
      simp [firstSeenStep]
    · rw [fm_none h rfl]; exact T.run
    · rw [fm_none h rfl, fm_some (f := called) h rfl]; exact perm_snoc_of T.pend
    · rw [fm_none h rfl, fm_none h rfl]; exact T.jobs
  | evict h1 h2 =>
    rename_i c id as ev
    refine ⟨nodup_forget _ (nodup_note T.nodup _ _), ?_, ?_, ?_, ?_⟩
    · intro t
      simp only
      rw [get_forget, get_note, firstSeen_snoc, T.get]
      simp [firstSeenStep]
    · rw [fm_none h rfl]; exact T.run
    · rw [fm_none h rfl, fm_some (f := called) h rfl]; exact perm_snoc_of T.pend
    · by_cases e : ev.length = 0
      · simp only [List.filterMap_append, List.filterMap_cons, carriedOut, decided, List.filterMap_nil, e, if_true,
          List.append_nil]
        exact T.jobs
      · simp only [List.filterMap_append, List.filterMap_cons, carriedOut, decided, List.filterMap_nil, e, if_false,
          List.append_nil]
        exact perm_snoc_of T.jobs
  | store h1 h2 =>
    rename_i a b id as ms
    refine ⟨T.nodup, ?_, ?_, ?_, ?_⟩
    · intro t
      rw [firstSeen_snoc]
      exact T.get t
    · rw [List.filterMap_append]
      show MemStore.new.run (h.filterMap underlying ++ [.collect id as]) = some ms
      obtain ⟨ms', e1, e2⟩ := run_collect T.run id as
      rw [h2] at e1
      injection e1 with e1
      subst e1
      exact e2
    · have := T.pend
      rw [h1] at this
      rw [fm_some (f := passedOn) h rfl, fm_none h rfl]; exact perm_move this
    · rw [fm_none h rfl, fm_none h rfl]; exact T.jobs
  | delete h1 =>
    rename_i a b ids
    refine ⟨T.nodup, ?_, ?_, ?_, ?_⟩
    · intro t
      rw [firstSeen_snoc]
      exact T.get t
    · rw [List.filterMap_append]
      exact run_delete T.run ids
    · rw [fm_none h rfl, fm_none h rfl]; exact T.pend
    · have := T.jobs
      rw [h1] at this
      rw [fm_some (f := carriedOut) h rfl, fm_none h rfl]; exact perm_move this

theorem Tracks.new : Tracks RecentStore.new [] :=
  ⟨by simp [RecentStore.new, AMap.keys], fun _ => rfl, rfl, List.Perm.refl _, List.Perm.refl _⟩

theorem RecentRuns.tracks {age : Int} {h : List RecentObs} {rs : RecentStore}
    (r : RecentRuns age RecentStore.new h rs) : Tracks rs h := by
  induction r with
  | nil => exact Tracks.new
  | snoc _ s ih => exact ih.step s

/-- An execution can be cut at any observation. -/
theorem RecentRuns.split {age : Int} {rs rs' : RecentStore} {h : List RecentObs} (r : RecentRuns age rs h rs') :
    ∀ {h1 h2 : List RecentObs} {o : RecentObs}, h = h1 ++ o :: h2 →
      ∃ rs1 rs2, RecentRuns age rs h1 rs1 ∧ RecentStep age rs1 o rs2 := by
  induction r with
  | nil => intro h1 h2 o e; simp at e
  | snoc r s ih =>
    rename_i rs1 rs2 h o'
    intro h1 h2 o e
    rcases List.eq_nil_or_concat h2 with rfl | ⟨h2, o2, rfl⟩
    · have := List.append_inj' e rfl
      obtain ⟨rfl, this⟩ := this
      injection this with this
      subst this
      exact ⟨_, _, r, s⟩
    · have e' : h ++ [o'] = (h1 ++ o :: h2) ++ [o2] := by rw [e]; simp
      obtain ⟨e', -⟩ := List.append_inj' e' rfl
      exact ih e'

/-! ## Ages -/

/-- Since the last eviction, at `L` with cutoff reading at least `L - δ`, every tracked trace is young. -/
structure Ages (age δ : Int) (now : Int) (rs : RecentStore) : Prop where
  nodup : rs.created.keys.Nodup
  evicted : ∀ L, rs.lastEvicted = some L → L ≤ now ∧ ∀ t s, rs.created.get t = some s → L - δ - age ≤ s

theorem monotone_snoc : ∀ {h : List RecentObs} {now : Int} {o : RecentObs}, Spec.Monotone now (h ++ [o]) →
    Spec.Monotone now h ∧ Spec.Monotone ((h.foldl (fun n o => match o with | .call c _ _ _ => c.evict | _ => n) now)) [o]
  | [], _, _, m => ⟨trivial, m⟩
  | .call c _ _ _ :: h, now, o, m => by
    obtain ⟨m1, m2, m3, m4, m5⟩ := m
    obtain ⟨i1, i2⟩ := monotone_snoc m5
    exact ⟨⟨m1, m2, m3, m4, i1⟩, i2⟩
  | .stored _ _ :: h, now, o, m => monotone_snoc (h := h) m
  | .deleted _ :: h, now, o, m => monotone_snoc (h := h) m

theorem Ages.step {age δ now : Int} (ha : 0 ≤ age) (ha' : age < 2 ^ 63 - 1) {rs rs' : RecentStore}
    {c : Readings} {id : SpanID} {as : List Annotation} {ev : List ID} (A : Ages age δ now rs)
    (s : RecentStep age rs (.call c id as ev) rs') (m : Spec.Monotone now [.call c id as ev])
    (hd : c.evict - c.cutoff ≤ δ) :
    Ages age δ c.evict rs' ∧ ∀ t s, rs'.created.get t = some s → c.since ≤ s + 2 * age + δ := by
  obtain ⟨m1, m2, m3, m4, -⟩ := m
  cases s with
  | keep h1 =>
    have hs : ∃ L, rs.lastEvicted = some L ∧ c.since - L ≤ age := by
      cases hl : rs.lastEvicted with
      | none =>
        rw [hl] at h1
        simp only [sinceEvicted] at h1
        omega
      | some L =>
        rw [hl] at h1
        simp only [sinceEvicted] at h1
        exact ⟨L, rfl, by omega⟩
    obtain ⟨L, hL, hLa⟩ := hs
    obtain ⟨q1, q2⟩ := A.evicted L hL
    have key : ∀ t s, (note rs.created id.trace c.seen).get t = some s → L - δ - age ≤ s := by
      intro t s hg
      rw [get_note] at hg
      by_cases e : id.trace = t
      · rw [if_pos e] at hg
        cases hr : rs.created.get t with
        | none => rw [hr] at hg; simp at hg; omega
        | some v => rw [hr] at hg; simp at hg; subst hg; exact q2 t v hr
      · rw [if_neg e] at hg; exact q2 t s hg
    refine ⟨⟨nodup_note A.nodup _ _, ?_⟩, ?_⟩
    · intro L' hL'
      simp only at hL'
      rw [hL] at hL'
      injection hL' with hL'
      subst hL'
      exact ⟨by omega, key⟩
    · intro t s hg
      have := key t s hg
      omega
  | evict h1 h2 =>
    have key : ∀ t s, (forget (note rs.created id.trace c.seen) ev).get t = some s → c.cutoff - age ≤ s := by
      intro t s hg
      rw [get_forget] at hg
      by_cases ht : t ∈ ev
      · rw [if_pos ht] at hg; cases hg
      · rw [if_neg ht] at hg
        by_contra hlt
        exact ht (h2.symm.subset ((mem_expired (nodup_note A.nodup _ _) t _).2 ⟨s, hg, by omega⟩))
    refine ⟨⟨nodup_forget _ (nodup_note A.nodup _ _), ?_⟩, ?_⟩
    · intro L hL
      injection hL with hL
      subst hL
      refine ⟨Int.le_refl _, fun t s hg => ?_⟩
      have := key t s hg
      omega
    · intro t s hg
      have := key t s hg
      omega

theorem RecentRuns.ages {age δ start : Int} (ha : 0 ≤ age) (ha' : age < 2 ^ 63 - 1) {h : List RecentObs}
    {rs : RecentStore} (r : RecentRuns age RecentStore.new h rs) (m : Spec.Monotone start h)
    (hd : ∀ c id as ev, .call c id as ev ∈ h → c.evict - c.cutoff ≤ δ) :
    Ages age δ (h.foldl (fun n o => match o with | .call c _ _ _ => c.evict | _ => n) start) rs := by
  induction r with
  | nil =>
    exact ⟨by simp [RecentStore.new, AMap.keys], by intro L hL; cases hL⟩
  | snoc r s ih =>
    rename_i rs1 rs2 h o
    obtain ⟨m1, m2⟩ := monotone_snoc m
    have A := ih m1 (fun c id as ev hm => hd c id as ev (by simp [hm]))
    rw [List.foldl_append]
    cases o with
    | call c id as ev => exact (A.step ha ha' s m2 (hd c id as ev (by simp))).1
    | stored id as => cases s; exact ⟨A.nodup, A.evicted⟩
    | deleted ids => cases s; exact ⟨A.nodup, A.evicted⟩

/-! ## Evictions that do not overlap calls -/

theorem apart_snoc {t : ID} {h : List RecentObs} {o : RecentObs} (a : Apart t (h ++ [o])) : Apart t h := by
  intro h1 c id as ev h2 e
  exact a h1 c id as ev (h2 ++ [o]) (by rw [e]; simp)

/-- The entries for trace `t`. -/
def ofTrace (t : ID) (L : List Entry) : List Entry := L.filter fun e => decide (e.1.trace = t)

/-- Either no eviction of `t` is outstanding and all calls have arrived or are on their way, or one is outstanding and
there have been no calls since. -/
def Settled (t : ID) (rs : RecentStore) (h : List RecentObs) : Prop :=
  (rs.jobs.countP (fun l => decide (t ∈ l)) = 0 ∧
    (live t (h.filterMap underlying) ++ ofTrace t rs.pending).Perm (recentCalls t h)) ∨
  (rs.jobs.countP (fun l => decide (t ∈ l)) ≠ 0 ∧ ofTrace t rs.pending = [] ∧ recentCalls t h = [])

theorem Tracks.open_calls {rs : RecentStore} {h : List RecentObs} (T : Tracks rs h) (t : ID)
    (e : (h.filterMap called).countP (fun e => decide (e.1.trace = t)) =
      (h.filterMap passedOn).countP (fun e => decide (e.1.trace = t))) : ofTrace t rs.pending = [] := by
  have := T.pend.countP_eq (fun e : Entry => decide (e.1.trace = t))
  rw [List.countP_append] at this
  have h0 : rs.pending.countP (fun e => decide (e.1.trace = t)) = 0 := by
    rw [e] at this
    exact Nat.add_left_cancel (this.trans (Nat.add_zero _).symm)
  unfold ofTrace
  rw [List.filter_eq_nil_iff]
  exact List.countP_eq_zero.1 h0

theorem Tracks.open_jobs {rs : RecentStore} {h : List RecentObs} (T : Tracks rs h) (t : ID)
    (e : (h.filterMap decided).countP (fun l => decide (t ∈ l)) =
      (h.filterMap carriedOut).countP (fun l => decide (t ∈ l))) :
    rs.jobs.countP (fun l => decide (t ∈ l)) = 0 := by
  have := T.jobs.countP_eq (fun l => decide (t ∈ l))
  rw [List.countP_append, e] at this
  omega

theorem Settled.call {t : ID} {rs : RecentStore} {h : List RecentObs} {c : Readings} {id : SpanID}
    {as : List Annotation} {ev : List ID} (T : Tracks rs h) (S : Settled t rs h)
    (a : Apart t (h ++ [.call c id as ev])) {cr : AMap ID Int} {le : Option Int} :
    Settled t ⟨rs.under, cr, le, rs.pending ++ [(id, as)], if ev.length = 0 then rs.jobs else rs.jobs ++ [ev]⟩
      (h ++ [.call c id as ev]) := by
  obtain ⟨a1, a2⟩ := a h c id as ev [] rfl
  have hu : (h ++ [RecentObs.call c id as ev]).filterMap underlying = h.filterMap underlying := by
    simp [underlying]
  unfold Settled
  rw [hu, recentCalls_snoc]
  simp only [recentStep]
  by_cases ht : t ∈ ev
  · have hne : id.trace ≠ t := fun e => (a1 e).1 ht
    have hlen : ev.length ≠ 0 := by
      intro h0
      rw [List.length_eq_zero_iff] at h0
      subst h0
      cases ht
    refine Or.inr ⟨?_, ?_, by rw [if_pos ht]⟩
    · rw [if_neg hlen, List.countP_append]
      simp [ht]
    · have := T.open_calls t (a2 ht)
      unfold ofTrace at this ⊢
      rw [List.filter_append, this]
      simp [hne]
  · rw [if_neg ht]
    have hj : (if ev.length = 0 then rs.jobs else rs.jobs ++ [ev]).countP (fun l => decide (t ∈ l)) =
        rs.jobs.countP (fun l => decide (t ∈ l)) := by
      split
      · rfl
      · rw [List.countP_append]; simp [ht]
    rw [hj]
    by_cases e : id.trace = t
    · have h0 := T.open_jobs t (a1 e).2
      rcases S with ⟨-, S⟩ | ⟨S, -⟩
      · refine Or.inl ⟨h0, ?_⟩
        rw [if_pos e]
        have : ofTrace t (rs.pending ++ [(id, as)]) = ofTrace t rs.pending ++ [(id, as)] := by
          simp [ofTrace, e]
        rw [this]
        exact perm_snoc_of S
      · exact absurd h0 S
    · rw [if_neg e]
      have : ofTrace t (rs.pending ++ [(id, as)]) = ofTrace t rs.pending := by
        simp [ofTrace, e]
      rw [this]
      exact S

theorem Settled.step {age : Int} {t : ID} {rs rs' : RecentStore} {h : List RecentObs} {o : RecentObs} (T : Tracks rs h)
    (S : Settled t rs h) (s : RecentStep age rs o rs') (a : Apart t (h ++ [o])) : Settled t rs' (h ++ [o]) := by
  cases s with
  | keep h1 => exact S.call T a
  | evict h1 h2 => exact S.call T a
  | store h1 h2 =>
    rename_i A B id as ms
    have hu : (h ++ [RecentObs.stored id as]).filterMap underlying = h.filterMap underlying ++ [.collect id as] := by
      simp [underlying]
    unfold Settled at S ⊢
    rw [hu, recentCalls_snoc, live_collect]
    simp only [recentStep]
    rw [h1] at S
    by_cases e : id.trace = t
    · have e1 : ofTrace t (A ++ (id, as) :: B) = ofTrace t A ++ (id, as) :: ofTrace t B := by simp [ofTrace, e]
      have e2 : ofTrace t (A ++ B) = ofTrace t A ++ ofTrace t B := by simp [ofTrace]
      rw [e1] at S
      rw [if_pos e, e2]
      rcases S with ⟨S1, S2⟩ | ⟨-, S2, -⟩
      · exact Or.inl ⟨S1, perm_move S2⟩
      · simp at S2
    · have e1 : ofTrace t (A ++ (id, as) :: B) = ofTrace t (A ++ B) := by simp [ofTrace, e]
      rw [e1] at S
      rw [if_neg e]
      exact S
  | delete h1 =>
    rename_i A B ids
    have hu : (h ++ [RecentObs.deleted ids]).filterMap underlying = h.filterMap underlying ++ [.delete ids] := by
      simp [underlying]
    unfold Settled at S ⊢
    rw [hu, recentCalls_snoc, live_delete]
    simp only [recentStep]
    rw [h1] at S
    by_cases ht : t ∈ ids
    · rw [if_pos ht]
      rcases S with ⟨S1, -⟩ | ⟨-, S2, S3⟩
      · rw [List.countP_append, List.countP_cons] at S1
        simp [ht] at S1
      · by_cases h0 : (A ++ B).countP (fun l => decide (t ∈ l)) = 0
        · exact Or.inl ⟨h0, by rw [S2, S3]; exact List.Perm.refl _⟩
        · exact Or.inr ⟨h0, S2, S3⟩
    · rw [if_neg ht]
      have : (A ++ ids :: B).countP (fun l => decide (t ∈ l)) = (A ++ B).countP (fun l => decide (t ∈ l)) := by
        rw [List.countP_append, List.countP_cons, List.countP_append]
        simp [ht]
      rw [this] at S
      exact S

theorem RecentRuns.settled {age : Int} {t : ID} {h : List RecentObs} {rs : RecentStore}
    (r : RecentRuns age RecentStore.new h rs) (a : Apart t h) : Settled t rs h := by
  induction r with
  | nil => exact Or.inl ⟨rfl, List.Perm.refl _⟩
  | snoc r s ih =>
    exact (ih (apart_snoc a)).step r.tracks s a

theorem firstSeen_calls (t : ID) (h : List RecentObs) : firstSeen t h = none ↔ recentCalls t h = [] := by
  suffices ∀ (s : Option Int) (L : List Entry), (s = none ↔ L = []) →
      (h.foldl (firstSeenStep t) s = none ↔ h.foldl (recentStep t) L = []) from this _ _ (by simp)
  induction h with
  | nil => intro s L e; exact e
  | cons o h ih =>
    intro s L e
    refine ih _ _ ?_
    cases o with
    | call c id as ev =>
      simp only [firstSeenStep, recentStep]
      by_cases h1 : t ∈ ev
      · simp [h1]
      · by_cases h2 : id.trace = t
        · simp [h1, h2]
        · simp [h1, h2, e]
    | stored id as => exact e
    | deleted ids => exact e

/-- `Apart` at one observation. -/
def apartAt (t : ID) (h1 : List RecentObs) : RecentObs → Bool
  | .call _ id _ ev =>
    decide ((id.trace = t → t ∉ ev ∧
      (h1.filterMap decided).countP (fun l => decide (t ∈ l)) =
        (h1.filterMap carriedOut).countP (fun l => decide (t ∈ l))) ∧
    (t ∈ ev → (h1.filterMap called).countP (fun e => decide (e.1.trace = t)) =
      (h1.filterMap passedOn).countP (fun e => decide (e.1.trace = t))))
  | _ => true

theorem apart_of_all {t : ID} {h : List RecentObs}
    (a : ((List.range h.length).all fun n => (h[n]?).all (apartAt t (h.take n))) = true) : Apart t h := by
  intro h1 c id as ev h2 e
  rw [List.all_eq_true] at a
  have := a h1.length (by rw [List.mem_range, e]; simp)
  have e1 : h[h1.length]? = some (.call c id as ev) := by rw [e]; simp
  have e2 : h.take h1.length = h1 := by rw [e]; simp
  rw [e1, e2] at this
  exact of_decide_eq_true this

end Appdash
