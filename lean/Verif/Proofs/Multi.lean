import Verif.Spec.Multi

/-! # Proofs about `MultiStore` and `MultiQueryer` -/

namespace Appdash

open Spec

theorem callsUpTo_succ (call : Nat → MultiCall) (k : Nat) : callsUpTo call (k + 1) = callsUpTo call k ++ [call k] := by
  simp [callsUpTo, List.range_succ]

/-- The stores `m, …, m+n-1`. -/
def recordingsFrom (r : Answers) (m n : Nat) : List (AnyStore (List MultiCall)) := (List.range' m n).map (recording r)

theorem recordings_eq (r : Answers) (n : Nat) : recordings r n = recordingsFrom r 0 n := by
  simp [recordings, recordingsFrom, List.range_eq_range']

theorem recordingsFrom_succ (r : Answers) (m n : Nat) :
    recordingsFrom r m (n + 1) = recording r m :: recordingsFrom r (m + 1) n := by
  simp [recordingsFrom, List.range'_succ]

theorem multiCollect_from (r : Answers) (id : SpanID) (as : List Annotation) (w : List MultiCall) :
    ∀ (n m : Nat),
      (∀ i, m ≤ i → i < m + n → r.collect (.collect i id as) (w ++ callsUpTo (.collect · id as) i) = none) ∧
        multiCollect (recordingsFrom r m n) id as (w ++ callsUpTo (.collect · id as) m) =
          (w ++ callsUpTo (.collect · id as) (m + n), none) ∨
      ∃ k err, m ≤ k ∧ k < m + n ∧
        (∀ i, m ≤ i → i < k → r.collect (.collect i id as) (w ++ callsUpTo (.collect · id as) i) = none) ∧
        r.collect (.collect k id as) (w ++ callsUpTo (.collect · id as) k) = some err ∧
        multiCollect (recordingsFrom r m n) id as (w ++ callsUpTo (.collect · id as) m) =
          (w ++ callsUpTo (.collect · id as) (k + 1), some err)
  | 0, m => Or.inl ⟨fun i h1 h2 => by omega, rfl⟩
  | n + 1, m => by
    rw [recordingsFrom_succ]
    have hw : w ++ callsUpTo (.collect · id as) m ++ [.collect m id as] =
        w ++ callsUpTo (.collect · id as) (m + 1) := by rw [callsUpTo_succ, List.append_assoc]
    cases hc : r.collect (.collect m id as) (w ++ callsUpTo (.collect · id as) m) with
    | some err =>
      refine Or.inr ⟨m, err, Nat.le_refl _, by omega, fun i h1 h2 => by omega, hc, ?_⟩
      simp only [multiCollect, recording, hc, hw]
    | none =>
      have e : multiCollect (recording r m :: recordingsFrom r (m + 1) n) id as
          (w ++ callsUpTo (.collect · id as) m) =
          multiCollect (recordingsFrom r (m + 1) n) id as (w ++ callsUpTo (.collect · id as) (m + 1)) := by
        simp only [multiCollect, recording, hc, hw]
      rw [e]
      have hle : m + (n + 1) = m + 1 + n := by omega
      rcases multiCollect_from r id as w n (m + 1) with ⟨h1, h2⟩ | ⟨k, err, h1, h2, h3, h4, h5⟩
      · refine Or.inl ⟨fun i q1 q2 => ?_, by rw [h2, hle]⟩
        rcases Nat.eq_or_lt_of_le q1 with rfl | q1
        · exact hc
        · exact h1 i q1 (by omega)
      · refine Or.inr ⟨k, err, by omega, by omega, fun i q1 q2 => ?_, h4, h5⟩
        rcases Nat.eq_or_lt_of_le q1 with rfl | q1
        · exact hc
        · exact h3 i q1 q2

theorem multiTrace_from (r : Answers) (t : ID) (w : List MultiCall) :
    ∀ (n m : Nat),
      (∀ i, m ≤ i → i < m + n → (r.trace (.trace i t) (w ++ callsUpTo (.trace · t) i)).2 = some .notFound) ∧
        multiTrace (recordingsFrom r m n) t (w ++ callsUpTo (.trace · t) m) =
          (w ++ callsUpTo (.trace · t) (m + n), none, some .notFound) ∨
      ∃ k, m ≤ k ∧ k < m + n ∧
        (∀ i, m ≤ i → i < k → (r.trace (.trace i t) (w ++ callsUpTo (.trace · t) i)).2 = some .notFound) ∧
        (r.trace (.trace k t) (w ++ callsUpTo (.trace · t) k)).2 ≠ some .notFound ∧
        multiTrace (recordingsFrom r m n) t (w ++ callsUpTo (.trace · t) m) =
          (w ++ callsUpTo (.trace · t) (k + 1),
            if (r.trace (.trace k t) (w ++ callsUpTo (.trace · t) k)).2 = none
              then r.trace (.trace k t) (w ++ callsUpTo (.trace · t) k)
              else (none, (r.trace (.trace k t) (w ++ callsUpTo (.trace · t) k)).2))
  | 0, m => Or.inl ⟨fun i h1 h2 => by omega, rfl⟩
  | n + 1, m => by
    rw [recordingsFrom_succ]
    have hw : w ++ callsUpTo (.trace · t) m ++ [.trace m t] =
        w ++ callsUpTo (.trace · t) (m + 1) := by rw [callsUpTo_succ, List.append_assoc]
    have hstep : ∀ x y, r.trace (.trace m t) (w ++ callsUpTo (.trace · t) m) = (x, y) → y ≠ some .notFound →
        multiTrace (recording r m :: recordingsFrom r (m + 1) n) t (w ++ callsUpTo (.trace · t) m) =
          (w ++ callsUpTo (.trace · t) (m + 1), if y = none then (x, y) else (none, y)) := by
      intro x y hc hy
      simp only [multiTrace, recording, hc, hw]
      cases y with
      | none => simp
      | some err =>
        cases err with
        | notFound => exact absurd rfl hy
        | other msg => simp
    cases hc : r.trace (.trace m t) (w ++ callsUpTo (.trace · t) m) with
    | mk x y =>
      by_cases hy : y = some .notFound
      · subst hy
        have e : multiTrace (recording r m :: recordingsFrom r (m + 1) n) t (w ++ callsUpTo (.trace · t) m) =
            multiTrace (recordingsFrom r (m + 1) n) t (w ++ callsUpTo (.trace · t) (m + 1)) := by
          simp only [multiTrace, recording, hc, hw]
        rw [e]
        have hle : m + (n + 1) = m + 1 + n := by omega
        rcases multiTrace_from r t w n (m + 1) with ⟨h1, h2⟩ | ⟨k, h1, h2, h3, h4, h5⟩
        · refine Or.inl ⟨fun i q1 q2 => ?_, by rw [h2, hle]⟩
          rcases Nat.eq_or_lt_of_le q1 with rfl | q1
          · rw [hc]
          · exact h1 i q1 (by omega)
        · refine Or.inr ⟨k, by omega, by omega, fun i q1 q2 => ?_, h4, h5⟩
          rcases Nat.eq_or_lt_of_le q1 with rfl | q1
          · rw [hc]
          · exact h3 i q1 q2
      · refine Or.inr ⟨m, Nat.le_refl _, by omega, fun i h1 h2 => by omega, by rw [hc]; exact hy, ?_⟩
        rw [hstep x y hc hy, hc]

/-- What the accumulated list says about the traces seen so far. -/
structure UnionOf (union : AMap ID Unit) (all : List Tree) (seen : List Tree) : Prop where
  set : ∀ t, (union.get t).isSome = true ↔ t ∈ all.map (·.span.id.trace)
  sub : all.Sublist seen
  nodup : (all.map (·.span.id.trace)).Nodup
  find : ∀ t, all.find? (fun x => decide (x.span.id.trace = t)) = seen.find? (fun x => decide (x.span.id.trace = t))

theorem UnionOf.loop : ∀ (ts : List Tree) {union : AMap ID Unit} {all seen : List Tree}, UnionOf union all seen →
    ∃ union' all', multiUnion (ts.map some) union all = some (union', all') ∧ UnionOf union' all' (seen ++ ts)
  | [], union, all, seen, U => ⟨union, all, rfl, by rw [List.append_nil]; exact U⟩
  | x :: ts, union, all, seen, U => by
    have hs : seen ++ x :: ts = (seen ++ [x]) ++ ts := by simp
    have hfind : ∀ t, t ∈ all.map (·.span.id.trace) ↔
        (all.find? (fun x => decide (x.span.id.trace = t))).isSome = true := by
      intro t; simp [List.find?_isSome]
    rw [hs]
    cases hg : union.get x.span.id.trace with
    | some u =>
      have hm : x.span.id.trace ∈ all.map (·.span.id.trace) := (U.set _).1 (by rw [hg]; rfl)
      have U' : UnionOf union all (seen ++ [x]) := by
        refine ⟨U.set, U.sub.trans (List.sublist_append_left _ _), U.nodup, fun t => ?_⟩
        rw [List.find?_append, U.find]
        by_cases e : x.span.id.trace = t
        · have := (hfind t).1 (e ▸ hm)
          rw [U.find] at this
          cases hc : seen.find? (fun x => decide (x.span.id.trace = t)) with
          | none => rw [hc] at this; cases this
          | some y => rfl
        · simp [e]
      obtain ⟨u', a', h1, h2⟩ := UnionOf.loop ts U'
      exact ⟨u', a', by simp only [List.map_cons, multiUnion, hg]; exact h1, h2⟩
    | none =>
      have hm : x.span.id.trace ∉ all.map (·.span.id.trace) := by
        intro h
        have := (U.set _).2 h
        rw [hg] at this
        cases this
      have U' : UnionOf (union.set x.span.id.trace ()) (all ++ [x]) (seen ++ [x]) := by
        refine ⟨fun t => ?_, U.sub.append (List.Sublist.refl _), ?_, fun t => ?_⟩
        · rw [AMap.get_set]
          by_cases e : x.span.id.trace = t
          · rw [if_pos e]; simp [e]
          · rw [if_neg e, U.set]
            have e' : ¬ t = x.span.id.trace := fun h => e h.symm
            simp [e']
        · rw [List.map_append, List.map_singleton]
          refine List.nodup_append.2 ⟨U.nodup, by simp, ?_⟩
          intro a ha b hb
          rw [List.mem_singleton] at hb
          subst hb
          rintro rfl
          exact hm ha
        · rw [List.find?_append, List.find?_append, U.find]
      obtain ⟨u', a', h1, h2⟩ := UnionOf.loop ts U'
      exact ⟨u', a', by simp only [List.map_cons, multiUnion, hg]; exact h1, h2⟩

theorem multiTraces_from (r : Answers) (w : List MultiCall) (ts : Nat → List Tree) :
    ∀ (k m n : Nat), k ≤ n →
      (∀ i, m ≤ i → i < m + k →
        r.traces (.traces i {}) (w ++ callsUpTo (.traces · {}) i) = ((ts i).map some, none)) →
      ∀ {union : AMap ID Unit} {all seen : List Tree}, UnionOf union all seen →
      ∃ union' all', UnionOf union' all' (seen ++ (List.range' m k).flatMap ts) ∧
        multiTracesLoop (recordingsFrom r m n) union all (w ++ callsUpTo (.traces · {}) m) =
          multiTracesLoop (recordingsFrom r (m + k) (n - k)) union' all' (w ++ callsUpTo (.traces · {}) (m + k))
  | 0, m, n, _, _, union, all, seen, U => ⟨union, all, by simpa using U, rfl⟩
  | k + 1, m, n, hk, h, union, all, seen, U => by
    obtain ⟨n, rfl⟩ : ∃ n', n = n' + 1 := ⟨n - 1, by omega⟩
    have hc := h m (Nat.le_refl _) (by omega)
    obtain ⟨u1, a1, e1, U1⟩ := U.loop (ts m)
    obtain ⟨u2, a2, U2, e2⟩ := multiTraces_from r w ts k (m + 1) n (by omega)
      (fun i q1 q2 => h i (by omega) (by omega)) U1
    refine ⟨u2, a2, ?_, ?_⟩
    · rw [List.range'_succ, List.flatMap_cons, ← List.append_assoc]
      exact U2
    · rw [recordingsFrom_succ]
      have hw : w ++ callsUpTo (.traces · {}) m ++ [.traces m {}] =
        w ++ callsUpTo (.traces · {}) (m + 1) := by rw [callsUpTo_succ, List.append_assoc]
      simp only [multiTracesLoop, recording, hc, hw, e1]
      rw [e2]
      have a1 : m + (k + 1) = m + 1 + k := by omega
      have a2 : n + 1 - (k + 1) = n - k := by omega
      rw [a1, a2]

end Appdash
