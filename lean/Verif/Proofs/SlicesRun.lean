import Verif.Proofs.Slices
import Verif.Properties.Store

/-!
# Proofs about runs of programs with slices
-/

namespace Appdash.Slices

/-- A store that calls have led to. -/
def Called (ms : MemStore) : Prop := ∃ ops, MemStore.new.run ops = some ms

theorem Called.step {ms : MemStore} (h : Called ms) (op : StoreOp) : ∃ ms', ms.step op = some ms' ∧ Called ms' := by
  obtain ⟨ops, h⟩ := h
  obtain ⟨ms', h'⟩ := collect_never_panics (ops ++ [op])
  have h'' := h'
  rw [run_append, h] at h'
  simp only [Option.bind_some] at h'
  cases hs : ms.step op with
  | none => simp [MemStore.run, hs] at h'
  | some ms'' =>
    simp only [MemStore.run, hs, Option.some.injEq] at h'
    subst h'
    exact ⟨_, rfl, _, h''⟩

/-- The program with copies does not panic. -/
theorem copying_runs : ∀ (ops : List Op) (c : Spec.Copying), (∀ k, Called (c.stores k)) →
    ∃ c', c.run ops = some c' ∧ ∀ k, Called (c'.stores k)
  | [], c, h => ⟨c, rfl, h⟩
  | op :: ops, c, h => by
    have up : ∀ k ms, Called ms → ∀ k', Called (upd c.stores k ms k') := by
      intro k ms hms k'
      by_cases e : k' = k
      · subst e; rw [upd_self]; exact hms
      · rw [upd_ne _ _ e]; exact h k'
    have : ∃ c', c.step op = some c' ∧ ∀ k, Called (c'.stores k) := by
      cases op with
      | collect k id v n =>
        obtain ⟨ms, h1, h2⟩ := (h k).step (.collect id (c.vars v))
        have h1' : (c.stores k).collect id (c.vars v) = some ms := h1
        exact ⟨_, by simp only [Spec.Copying.step, h1', Option.map_some]; rfl, up k ms h2⟩
      | delete k ids =>
        obtain ⟨ms, h1, h2⟩ := (h k).step (.delete ids)
        cases h1
        exact ⟨_, rfl, up k _ h2⟩
      | send k e n =>
        by_cases hg : e.1 < c.gen k
        · cases hp : c.pending k e with
          | none => exact ⟨c, by simp only [Spec.Copying.step, hg, hp, if_true], h⟩
          | some as =>
            obtain ⟨ms, h1, h2⟩ := (h k).step (.collect e.2 as)
            have h1' : (c.stores k).collect e.2 as = some ms := h1
            exact ⟨_, by simp only [Spec.Copying.step, hg, hp, if_true, h1', Option.map_some]; rfl, up k ms h2⟩
        · exact ⟨c, by simp only [Spec.Copying.step, hg, if_false], h⟩
      | _ => exact ⟨_, rfl, h⟩
    obtain ⟨c', h1, h2⟩ := this
    rw [Spec.Copying.run, h1]
    exact copying_runs ops c' h2

theorem sys_run_append (a b : List Op) : ∀ s : Sys, s.run (a ++ b) = (s.run a).bind fun s => s.run b := by
  induction a with
  | nil => intro s; rfl
  | cons op a ih =>
    intro s
    rw [List.cons_append, Sys.run, Sys.run]
    cases s.step op with
    | none => rfl
    | some s' => exact ih s'

theorem copying_run_append (a b : List Op) : ∀ c : Spec.Copying, c.run (a ++ b) = (c.run a).bind fun c => c.run b := by
  induction a with
  | nil => intro s; rfl
  | cons op a ih =>
    intro s
    rw [List.cons_append, Spec.Copying.run, Spec.Copying.run]
    cases s.step op with
    | none => rfl
    | some s' => exact ih s'

theorem handsOver_left (b : List Op) : ∀ (a : List Op) (gone : Nat → Bool), Spec.HandsOver gone (a ++ b) → Spec.HandsOver gone a
  | [], _, _ => trivial
  | op :: a, gone, h => by
    cases op <;> simp only [List.cons_append, Spec.HandsOver] at h ⊢ <;>
      first | exact handsOver_left b a _ h | exact ⟨h.1, handsOver_left b a _ h.2⟩

end Appdash.Slices
