import Verif.Proofs.Locks

/-!
# C164: calls never wait for each other for ever

Stores, collectors, recorders and servers in any acyclic combination, with any number of goroutines.
-/

namespace Appdash.Locks
open Spec

/-- **C164** (no deadlock).  As long as some call has not returned, some goroutine can make a step. -/
theorem no_deadlock {sys : Nat → Kind} (ha : NoCycles sys) {c : Config} (h : Reachable sys c) (hb : ¬ NoCallsLeft c) : ∃ c', Run c c' := by
  have hi := inv_reachable ha h
  apply Classical.byContradiction
  intro hn
  refine hb fun p hp => ?_
  cases p with
  | nil => rfl
  | cons a p =>
    obtain ⟨i, hi'⟩ := List.mem_iff_getElem?.1 hp
    exact absurd (step_of_busy hi hi') hn

/-- **C164** (calls return).  However the scheduler chooses, the calls that have begun end after a bounded number of steps: when no step is
left, all have returned and no mutex is held. -/
theorem calls_return {sys : Nat → Kind} (ha : NoCycles sys) {c : Config} (h : Reachable sys c) :
    ∃ bound, ∀ k c', Steps k c c' → k ≤ bound ∧ ((¬ ∃ c'', Run c' c'') → NoCallsLeft c' ∧ ∀ i m, ¬ Holds c' i m) := by
  refine ⟨total c.threads, fun k c' hs => ?_⟩
  have h1 : Reachable sys c' ∧ total c'.threads + k = total c.threads := by
    induction hs with
    | none c => exact ⟨h, rfl⟩
    | more hr _ ih =>
      obtain ⟨h1, h2⟩ := ih (.run h hr)
      have := run_total hr
      exact ⟨h1, by omega⟩
  refine ⟨by omega, fun hn => ?_⟩
  have hall : NoCallsLeft c' := Classical.byContradiction fun hb => hn (no_deadlock ha h1.1 hb)
  refine ⟨hall, fun i m hm => ?_⟩
  obtain ⟨held, g1, g2, g3⟩ := inv_reachable ha h1.1
  obtain ⟨H, hH, hmem⟩ := (g3 m i).1 hm
  have hj := List.getElem?_eq_getElem (l := c'.threads) (i := i) (by have := (List.getElem?_eq_some_iff.1 hH).1; omega)
  obtain ⟨hg, -⟩ := g2 i H _ hH hj
  rw [hall _ (List.getElem_mem _)] at hg
  cases hg
  cases hmem

/-- **C164** (unlocking).  A goroutine unlocks only mutexes that it holds, so that the run-time error of unlocking a mutex that is not locked
never happens, and no goroutine unlocks for another. -/
theorem unlocks_own {sys : Nat → Kind} (ha : NoCycles sys) {c : Config} (h : Reachable sys c) {i m : Nat} {p : List Act}
    (hi : c.threads[i]? = some (.base (.unlock m) :: p)) : Holds c i m := by
  obtain ⟨held, g1, g2, g3⟩ := inv_reachable ha h
  have hH := List.getElem?_eq_getElem (l := held) (i := i) (by have := (List.getElem?_eq_some_iff.1 hi).1; omega)
  generalize held[i]'_ = H at hH
  obtain ⟨hg, -⟩ := g2 i H _ hH hi
  cases hg with
  | unlock _ => exact (g3 m i).2 ⟨_, hH, by simp⟩

/-- **C164** (no mutex twice).  A goroutine that waits for a mutex does not hold it. -/
theorem waits_for_others {sys : Nat → Kind} (ha : NoCycles sys) {c : Config} (h : Reachable sys c) {i m : Nat} {p : List Act}
    (hi : c.threads[i]? = some (.base (.lock m) :: p)) : ¬ Holds c i m := by
  obtain ⟨held, g1, g2, g3⟩ := inv_reachable ha h
  intro hm
  obtain ⟨H, hH, hmem⟩ := (g3 m i).1 hm
  obtain ⟨hg, -⟩ := g2 i H _ hH hi
  cases hg with
  | lock hl _ => exact Nat.lt_irrefl _ (hl m hmem)

/-- A server that collects into two stores, one of them limited in number and age; a program with a recorder, a `ChunkedCollector` and a
`RemoteCollector`. -/
def sampleSys : Nat → Kind
  | 0 => .memory
  | 1 => .limit 0
  | 2 => .recent 1
  | 3 => .memory
  | 4 => .multi [2, 3]
  | 5 => .server 4
  | 6 => .remote
  | 7 => .chunked 6
  | 8 => .recorder 7
  | _ => .leaf

theorem sampleSys_noCycles : NoCycles sampleSys := by
  intro n s hs
  unfold sampleSys at hs
  split at hs <;> simp [uses] at hs <;> omega

/-- A packet arrives, old traces are deleted both by number and by age, and the second goroutine has to wait for the first. -/
example : ∃ c p, Reachable sampleSys c ∧ ¬ NoCallsLeft c ∧ Holds c 0 (mu 0) ∧ c.threads[1]? = some (.base (.lock (mu 0)) :: p) := by
  have hd : Deletes sampleSys 0 (under (mu 0)) := .memory rfl
  have hc : Does sampleSys 0 .collect (plain (under (mu 0))) := .memory rfl (.inl rfl)
  have h2 : Does sampleSys 2 .collect _ := .recentEvict (n := 2) (s := 1) rfl (.limit rfl hd) (.limitEvict (n := 1) (s := 0) rfl hd hc)
  have h3 : Does sampleSys 3 .collect _ := .memory (n := 3) rfl (.inl rfl)
  have h4 : Does sampleSys 4 .collect _ := .multi (n := 4) (stores := [2, 3]) (ps := [(2, _), (3, _)]) rfl (.inl rfl) (List.prefix_refl _) (by
    intro x hx
    rcases List.mem_cons.1 hx with rfl | hx
    · exact h2
    · rcases List.mem_cons.1 hx with rfl | hx
      · exact h3
      · cases hx)
  have h5 : Does sampleSys 5 .packet _ := .packet (n := 5) (bs := []) (bs' := []) rfl h4
  have r0 := Reachable.call .init h5
  have r1 := r0.run (.lock (i := 0) (m := mu 2) rfl rfl)
  have r2 := r1.run (.spawn (i := 0) rfl)
  have r3 := r2.run (.unlock (i := 0) rfl)
  have r4 := r3.run (.lock (i := 0) (m := mu 1) rfl rfl)
  have r5 := r4.run (.lock (i := 0) (m := mu 0) rfl rfl)
  refine ⟨_, _, r5, ?_, rfl, rfl⟩
  intro h
  have := h _ (List.mem_iff_getElem?.2 ⟨1, rfl⟩)
  cases this

/-- A `LimitStore` that wraps itself. -/
def cyclicSys : Nat → Kind := fun _ => .limit 0

/-- **C164** (cycles).  The combination must be acyclic: a `LimitStore` whose store leads back to itself waits for its own mutex for ever. -/
theorem cycle_deadlocks : ∃ c, Reachable cyclicSys c ∧ ¬ NoCallsLeft c ∧ ¬ ∃ c', Run c c' := by
  have h : Does cyclicSys 0 .collect _ := .limitKnown (n := 0) (s := 0) rfl (.limitKnown (n := 0) (s := 0) rfl (.limitZero (s := 0) rfl))
  have r1 := (Reachable.call .init h).run (.lock (i := 0) (m := mu 0) rfl rfl)
  refine ⟨_, r1, ?_, ?_⟩
  · intro h
    have := h _ (List.mem_iff_getElem?.2 ⟨0, rfl⟩)
    cases this
  · have key : ∀ (c : Config) (p : List Act), c.threads = [.base (.lock (mu 0)) :: p] → c.holder (mu 0) ≠ none → ¬ ∃ c', Run c c' := by
      rintro c p hc hh ⟨c', hr⟩
      have one : ∀ (i : Nat) q, c.threads[i]? = some q → q = .base (.lock (mu 0)) :: p := by
        intro i q hq
        rw [hc] at hq
        cases i with
        | zero => simpa using hq.symm
        | succ i => simp at hq
      cases hr with
      | lock hi h0 => cases one _ _ hi; exact hh h0
      | unlock hi => cases one _ _ hi
      | work hi => cases one _ _ hi
      | spawn hi => cases one _ _ hi
    exact key _ _ rfl (by simp [setHolder])

end Appdash.Locks
