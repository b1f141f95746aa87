import Verif.Model.Bits

/-! # Lemmas on little- and big-endian numbers -/

namespace Appdash

@[simp] theorem length_leBytes (n v : Nat) : (leBytes n v).length = n := by
  induction n generalizing v with
  | zero => rfl
  | succ n ih => simp [leBytes, ih]

theorem leNat_lt (s : Bytes) : leNat s < 256 ^ s.length := by
  induction s with
  | nil => simp [leNat]
  | cons b s ih =>
    have := b.toNat_lt
    simp only [leNat, List.length_cons, Nat.pow_succ]
    omega

theorem leNat_leBytes (n v : Nat) : leNat (leBytes n v) = v % 256 ^ n := by
  induction n generalizing v with
  | zero => simp [leBytes, leNat, Nat.mod_one]
  | succ n ih =>
    simp only [leBytes, leNat, ih, UInt8.toNat_ofNat']
    have h : v % 256 ^ (n + 1) = v % 256 + 256 * (v / 256 % 256 ^ n) := by
      rw [Nat.pow_succ, Nat.mul_comm (256 ^ n) 256, Nat.mod_mul]
    rw [h]
    omega

theorem leBytes_leNat (s : Bytes) : leBytes s.length (leNat s) = s := by
  induction s with
  | nil => rfl
  | cons b s ih =>
    have hb := b.toNat_lt
    have h1 : (b.toNat + 256 * leNat s) % 256 = b.toNat := by omega
    have h2 : (b.toNat + 256 * leNat s) / 256 = leNat s := by omega
    simp only [leNat, List.length_cons, leBytes, h1, h2, ih]
    simp

theorem leNat_inj {s t : Bytes} (hl : s.length = t.length) (h : leNat s = leNat t) : s = t := by
  rw [← leBytes_leNat s, ← leBytes_leNat t, hl, h]

theorem leNat_append (s t : Bytes) : leNat (s ++ t) = leNat s + 256 ^ s.length * leNat t := by
  induction s with
  | nil => simp [leNat]
  | cons b s ih =>
    simp only [List.cons_append, leNat, ih, List.length_cons, Nat.pow_succ]
    rw [Nat.mul_add, Nat.mul_comm (256 ^ s.length) 256, Nat.mul_assoc]
    omega

theorem beNat_lt (s : Bytes) : beNat s < 256 ^ s.length := by
  simpa [beNat] using leNat_lt s.reverse

theorem beNat_append_singleton (s : Bytes) (b : UInt8) : beNat (s ++ [b]) = 256 * beNat s + b.toNat := by
  simp [beNat, leNat, Nat.add_comm]

theorem beNat_inj {s t : Bytes} (hl : s.length = t.length) (h : beNat s = beNat t) : s = t := by
  have := leNat_inj (s := s.reverse) (t := t.reverse) (by simpa using hl) h
  simpa using congrArg List.reverse this

end Appdash
