import Verif.Proofs.MultiSlices
import Verif.Proofs.SlicesRun

/-!
# Proofs about runs of programs with a `MultiStore`
-/

namespace Appdash.Slices

open Spec

theorem lock_run {n : Nat} : ∀ (p : List MultiOp) {κ0 : ID × ID} {as : List Annotation} {s : Sys} {gone : Nat → Bool} {c : Copying} {G : Log},
    Lock n 0 κ0 as s gone c G → MultiHandsOver gone p →
    (s.run (p.flatMap (MultiOp.ops n)) = none ∧ c.run (p.flatMap (MultiOp.ops n)) = none) ∨
      ∃ s' c', s.run (p.flatMap (MultiOp.ops n)) = some s' ∧ c.run (p.flatMap (MultiOp.ops n)) = some c' ∧
        ∀ k, (s'.stores k).contents s'.arrays = c'.stores k
  | [], _, _, s, _, c, _, L, _ => .inr ⟨s, c, rfl, rfl, L.contents⟩
  | op :: p, _, _, s, _, c, _, L, P => by
    rw [List.flatMap_cons, sys_run_append, copying_run_append]
    rcases L.step P with ⟨h1, h2⟩ | ⟨s', c', gone', κ1, bs, G', h1, h2, L', P'⟩
    · rw [h1, h2]; exact .inl ⟨rfl, rfl⟩
    · rw [h1, h2]; exact lock_run p L' P'

end Appdash.Slices
