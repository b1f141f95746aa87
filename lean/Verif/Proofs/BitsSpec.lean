import Verif.Spec.Bits
import Verif.Proofs.Bits

/-! # The model's readings of bytes against their specification -/

namespace Appdash

theorem leBytes_eq (n v : Nat) : leBytes n v = Spec.lowFirst n v := by
  unfold Spec.lowFirst
  induction n generalizing v with
  | zero => rfl
  | succ n ih =>
    rw [leBytes, ih, List.range_succ_eq_map]
    simp only [List.map_cons, Nat.pow_zero, Nat.div_one, List.map_map, List.cons.injEq, true_and]
    refine List.map_congr_left fun i _ => ?_
    simp only [Function.comp, Nat.succ_eq_add_one, Nat.pow_succ', Nat.div_div_eq_div_mul]

theorem sum_mul_map (l : List Nat) (f : Nat → Nat) (c : Nat) : c * (l.map f).sum = (l.map fun i => c * f i).sum := by
  induction l with
  | nil => rfl
  | cons a l ih => simp [Nat.mul_add, ih]

theorem leNat_eq (s : Bytes) : leNat s = Spec.lowFirstValue s := by
  unfold Spec.lowFirstValue
  induction s with
  | nil => rfl
  | cons b s ih =>
    rw [leNat, ih, List.length_cons, List.range_succ_eq_map, sum_mul_map]
    simp only [List.map_cons, List.sum_cons, List.getD_cons_zero, Nat.pow_zero, Nat.mul_one, List.map_map]
    congr 2
    refine List.map_congr_left fun i _ => ?_
    simp only [Function.comp, Nat.succ_eq_add_one, List.getD_cons_succ, Nat.pow_succ']
    rw [Nat.mul_left_comm]

end Appdash
