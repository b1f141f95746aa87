import Verif.Spec.Numerals
import Verif.Proofs.Float
import Verif.Proofs.Rfc3339
import Mathlib.Tactic.FieldSimp
import Mathlib.Tactic.Positivity
import Mathlib.Tactic.LinearCombination
import Mathlib.Algebra.Order.Ring.Rat

/-! # Lemmas about the texts of numbers -/

namespace Appdash

open Spec

set_option exponentiation.threshold 2100

/-! ## Rounding is to the nearest number -/

theorem binary_iff {p lo k : Nat} : Binary p lo k ↔ HasBits p lo k := hasBits_iff.symm

/-- Distances, multiplied by the denominator. -/
theorem dist_eq {num den : Nat} (hd : 0 < den) (k : Nat) : |(num : ℚ) / den - k| = ((|(num : Int) - k * den| : Int) : ℚ) / den := by
  have hd' : (0 : ℚ) < den := by exact_mod_cast hd
  rw [← abs_of_pos hd']
  push_cast
  rw [abs_of_pos hd', ← abs_of_pos hd', ← abs_div, abs_of_pos hd']
  congr 1
  field_simp

theorem dist_lt {num den : Nat} (hd : 0 < den) (k k' : Nat) :
    |(num : ℚ) / den - k| < |(num : ℚ) / den - k'| ↔ |(num : Int) - k * den| < |(num : Int) - k' * den| := by
  have hd' : (0 : ℚ) < den := by exact_mod_cast hd
  rw [dist_eq hd, dist_eq hd, div_lt_div_iff_of_pos_right hd']
  exact_mod_cast Iff.rfl

theorem dist_eq_iff {num den : Nat} (hd : 0 < den) (k k' : Nat) :
    |(num : ℚ) / den - k| = |(num : ℚ) / den - k'| ↔ |(num : Int) - k * den| = |(num : Int) - k' * den| := by
  have hd' : (den : ℚ) ≠ 0 := by exact_mod_cast hd.ne'
  rw [dist_eq hd, dist_eq hd, div_left_inj' hd']
  exact_mod_cast Iff.rfl

/-- The nearest multiple of `D`; at the same distance, the even multiple. -/
theorem rne_nearest {num D r' : Nat} (hD : 0 < D) (hr : r' ≠ rne num D) :
    |(num : Int) - rne num D * D| < |(num : Int) - r' * D| ∨
      (|(num : Int) - rne num D * D| = |(num : Int) - r' * D| ∧ rne num D % 2 = 0 ∧ (r' = rne num D + 1 ∨ rne num D = r' + 1)) := by
  have e := Nat.div_add_mod num D
  have hm := Nat.mod_lt num hD
  revert hr
  unfold rne
  generalize num / D = q at *
  generalize num % D = t at *
  subst e
  have key : ∀ r : Nat, (r = q ∨ r = q + 1) → r' ≠ r → (r' + 1 ≤ q ∨ r' = q ∨ r' = q + 1 ∨ q + 2 ≤ r') := by intros; omega
  have lo : r' + 1 ≤ q → (r' : Int) * D + D ≤ q * D := by
    intro h
    have : (r' + 1) * D ≤ q * D := Nat.mul_le_mul_right _ h
    have e2 : (r' + 1) * D = r' * D + D := by ring
    rw [e2] at this
    exact_mod_cast this
  have hi : q + 2 ≤ r' → (q : Int) * D + 2 * D ≤ r' * D := by
    intro h
    have : (q + 2) * D ≤ r' * D := Nat.mul_le_mul_right _ h
    have e2 : (q + 2) * D = q * D + 2 * D := by ring
    rw [e2] at this
    exact_mod_cast this
  have e1 : ((D * q + t : Nat) : Int) = q * D + t := by push_cast; ring
  rw [e1]
  generalize hQ : (q : Int) * D = Q at *
  generalize hR : (r' : Int) * D = R at *
  have hq1 : ((q + 1 : Nat) : Int) * D = Q + D := by rw [← hQ]; push_cast; ring
  have hcase : r' + 1 ≤ q ∨ r' = q ∨ r' = q + 1 ∨ q + 2 ≤ r' := by omega
  have hRq : r' = q → R = Q := by intro h; rw [← hR, ← hQ, h]
  have hRq1 : r' = q + 1 → R = Q + D := by intro h; rw [← hR, ← hq1, h]
  split
  · rename_i h
    intro hr
    left
    rw [hQ]
    rw [abs_of_nonneg (by omega : (0 : Int) ≤ Q + t - Q)]
    rcases hcase with h1 | h1 | h1 | h1
    · have := lo h1
      rw [abs_of_nonneg (by omega)]
      omega
    · exact absurd h1 hr
    · have := hRq1 h1
      rw [abs_of_nonpos (by omega)]
      omega
    · have := hi h1
      rw [abs_of_nonpos (by omega)]
      omega
  · split
    · rename_i h0 h
      intro hr
      left
      rw [hq1, abs_of_nonpos (by omega : Q + t - (Q + D) ≤ (0 : Int))]
      rcases hcase with h1 | h1 | h1 | h1
      · have := lo h1
        rw [abs_of_nonneg (by omega)]
        omega
      · have := hRq h1
        rw [abs_of_nonneg (by omega)]
        omega
      · exact absurd h1 hr
      · have := hi h1
        rw [abs_of_nonpos (by omega)]
        omega
    · rename_i h0 h
      have h2 : 2 * t = D := by omega
      rcases Nat.mod_two_eq_zero_or_one q with hq | hq
      · rw [hq, Nat.add_zero, hQ]
        intro hr
        rw [abs_of_nonneg (by omega : (0 : Int) ≤ Q + t - Q)]
        rcases hcase with h1 | h1 | h1 | h1
        · left
          have := lo h1
          rw [abs_of_nonneg (by omega)]
          omega
        · exact absurd h1 hr
        · right
          have := hRq1 h1
          refine ⟨?_, hq, Or.inl h1⟩
          rw [abs_of_nonpos (by omega)]
          omega
        · left
          have := hi h1
          rw [abs_of_nonpos (by omega)]
          omega
      · rw [hq, hq1]
        intro hr
        rw [abs_of_nonpos (by omega : Q + t - (Q + D) ≤ (0 : Int))]
        rcases hcase with h1 | h1 | h1 | h1
        · left
          have := lo h1
          rw [abs_of_nonneg (by omega)]
          omega
        · right
          have := hRq h1
          refine ⟨?_, by omega, Or.inr (by omega)⟩
          rw [abs_of_nonneg (by omega)]
          omega
        · exact absurd h1 hr
        · left
          have := hi h1
          rw [abs_of_nonpos (by omega)]
          omega

theorem roundTo_nearest {p lo num den : Nat} (hp : 0 < p) (hd : 0 < den) :
    Nearest p lo ((num : ℚ) / den) (roundTo p lo num den) := by
  refine ⟨binary_iff.2 (roundTo_hasBits hp hd), ?_⟩
  intro k' hk' hne
  rw [dist_lt hd, dist_eq_iff hd]
  rw [roundTo_eq] at hne ⊢
  generalize hs : shiftOf p lo (num / den) = sh at hne ⊢
  have hD : 0 < den * 2 ^ sh := Nat.mul_pos hd (by positivity)
  have mul : ∀ r : Nat, (((r * 2 ^ sh : Nat) : Int)) * den = r * ((den * 2 ^ sh : Nat) : Int) := by intro r; push_cast; ring
  by_cases hdiv : ∃ r', k' = r' * 2 ^ sh
  · obtain ⟨r', rfl⟩ := hdiv
    rw [mul, mul]
    have hr : r' ≠ rne num (den * 2 ^ sh) := fun h => hne (by rw [h])
    rcases rne_nearest hD hr with h | ⟨h, h2, h3⟩
    · exact Or.inl h
    · refine Or.inr ⟨h, ?_⟩
      generalize rne num (den * 2 ^ sh) = r at h2 h3
      obtain ⟨j, rfl⟩ : ∃ j, r = 2 * j := ⟨r / 2, by omega⟩
      rcases h3 with rfl | h3
      · exact ⟨-j, by push_cast; ring⟩
      · obtain rfl : r' = 2 * j - 1 := by omega
        refine ⟨j, ?_⟩
        have : ((2 * j - 1 : Nat) : Int) = 2 * j - 1 := by omega
        push_cast [this]
        ring
  · left
    obtain ⟨m, e, hm, he, rfl⟩ := hk'
    have hesh : e < sh := by
      by_contra hc
      exact hdiv ⟨m * 2 ^ (e - sh), by rw [Nat.mul_assoc, ← Nat.pow_add]; congr 2; omega⟩
    have hsh : sh + p = (num / den).log2 + 1 := by
      have : lo < shiftOf p lo (num / den) := by omega
      rw [← hs]
      unfold shiftOf at this ⊢
      omega
    have hq : num / den ≠ 0 := by
      intro h0
      rw [h0, Nat.log2_zero] at hsh
      omega
    have hB : 2 ^ (sh + p - 1) ≤ num / den := by
      rw [show sh + p - 1 = (num / den).log2 by omega]
      exact Nat.log2_self_le hq
    have hlt : m * 2 ^ e < 2 ^ (sh + p - 1) := by
      refine Nat.lt_of_lt_of_le (Nat.mul_lt_mul_of_pos_right hm (by positivity)) ?_
      rw [← Nat.pow_add]
      exact Nat.pow_le_pow_right (by decide) (by omega)
    have hBm : 2 ^ (sh + p - 1) = 2 ^ (p - 1) * 2 ^ sh := by rw [← Nat.pow_add]; congr 1; omega
    have hle : 2 ^ (sh + p - 1) * den ≤ num := Nat.le_trans (Nat.mul_le_mul_right _ hB) (Nat.div_mul_le_self _ _)
    have hlt' : m * 2 ^ e * den < 2 ^ (sh + p - 1) * den := Nat.mul_lt_mul_of_pos_right hlt hd
    have hnear : |(num : Int) - ((rne num (den * 2 ^ sh) * 2 ^ sh : Nat) : Int) * den| ≤ |(num : Int) - ((2 ^ (sh + p - 1) : Nat) : Int) * den| := by
      rw [hBm, mul, mul]
      by_cases hr : 2 ^ (p - 1) = rne num (den * 2 ^ sh)
      · rw [hr]
      · rcases rne_nearest hD hr with h | ⟨h, -⟩
        · exact Int.le_of_lt h
        · exact Int.le_of_eq h
    refine Int.lt_of_le_of_lt hnear ?_
    have a1 : ((2 ^ (sh + p - 1) : Nat) : Int) * den ≤ num := by exact_mod_cast hle
    have a2 : ((m * 2 ^ e : Nat) : Int) * den < ((2 ^ (sh + p - 1) : Nat) : Int) * den := by exact_mod_cast hlt'
    rw [abs_of_nonneg (by omega), abs_of_nonneg (by omega)]
    omega

/-- There is only one nearest number. -/
theorem nearest_unique {p lo : Nat} {v : ℚ} {k k' : Nat} (h : Nearest p lo v k) (h' : Nearest p lo v k') : k' = k := by
  by_contra hne
  rcases h.2 k' h'.1 hne with h1 | ⟨h1, j, hj⟩
  · rcases h'.2 k h.1 (Ne.symm hne) with h2 | ⟨h2, -⟩
    · exact absurd h1 (not_lt.2 h2.le)
    · exact absurd h1 (by rw [h2]; exact lt_irrefl _)
  · rcases h'.2 k h.1 (Ne.symm hne) with h2 | ⟨-, i, hi⟩
    · exact absurd h2 (by rw [h1]; exact lt_irrefl _)
    · have hd : (k : Int) - k' ≠ 0 := by omega
      have e : ((k : Int) - k') * (2 * j + 2 * i - 1) = 0 := by linear_combination hi - hj
      rcases Int.mul_eq_zero.1 e with e | e
      · exact hd e
      · omega

theorem nearest_iff {p lo num den k : Nat} (hp : 0 < p) (hd : 0 < den) {v : ℚ} (hv : v = (num : ℚ) / den) :
    Nearest p lo v k ↔ k = roundTo p lo num den := by
  subst hv
  exact ⟨fun h => nearest_unique (roundTo_nearest hp hd) h, fun h => h ▸ roundTo_nearest hp hd⟩

/-! ## Digits and integers -/

theorem parseDigits_fold {s : Bytes} (h : ∀ c ∈ s, 48 ≤ c.toNat ∧ c.toNat ≤ 57) (acc : Nat) :
    parseDigits acc s = some (s.foldl (fun n c => 10 * n + (c.toNat - 48)) acc) := by
  induction s generalizing acc with
  | nil => rfl
  | cons c s ih =>
    have hc := h c (List.mem_cons_self ..)
    simp only [parseDigits, digitVal?, hc, and_self, if_true, List.foldl_cons]
    rw [ih fun d hd => h d (List.mem_cons_of_mem _ hd), Nat.mul_comm acc]

theorem parseDigits_iff {s : Bytes} {n : Nat} : parseDigits 0 s = some n ↔ Numeral s.length s n := by
  constructor
  · intro h
    have hd := parseDigits_digits h
    rw [parseDigits_fold hd] at h
    injection h with h
    exact ⟨rfl, hd, h.symm⟩
  · intro h
    rw [parseDigits_fold h.digits, h.value]
    rfl

theorem numeral_length {k : Nat} {s : Bytes} {n : Nat} (h : Numeral k s n) : Numeral s.length s n := by
  rw [h.length]; exact h

theorem numeral_head {k : Nat} {s : Bytes} {n : Nat} (h : Numeral k s n) : s.head? ≠ some 45 ∧ s.head? ≠ some 43 := by
  cases s with
  | nil => simp
  | cons c s =>
    have := h.digits c (List.mem_cons_self ..)
    simp only [List.head?_cons, ne_eq, Option.some.injEq]
    constructor <;> (rintro rfl; revert this; decide)

/-- An integer with an optional sign, by the cases of the sign. -/
theorem integer_iff {s : Bytes} {i : Int} :
    Integer s i ↔ if s.head? = some 45 then (s.drop 1 ≠ [] ∧ ∃ n, Numeral (s.drop 1).length (s.drop 1) n ∧ i = -(n : Int))
      else if s.head? = some 43 then (s.drop 1 ≠ [] ∧ ∃ n, Numeral (s.drop 1).length (s.drop 1) n ∧ i = n)
      else (s ≠ [] ∧ ∃ n, Numeral s.length s n ∧ i = n) := by
  have ne : ∀ {k : Nat} {s : Bytes} {n : Nat}, 1 ≤ k → Numeral k s n → s ≠ [] := by
    rintro k s n hk h rfl
    have := h.length
    simp at this
    omega
  constructor
  · rintro ⟨ds, k, n, hk, hn, (⟨rfl | rfl, rfl⟩ | ⟨rfl, rfl⟩)⟩
    · have := numeral_head hn
      rw [if_neg this.1, if_neg this.2]
      exact ⟨ne hk hn, n, numeral_length hn, rfl⟩
    · exact ⟨ne hk hn, n, numeral_length hn, rfl⟩
    · exact ⟨ne hk hn, n, numeral_length hn, rfl⟩
  · intro h
    cases s with
    | nil => simp at h
    | cons c s =>
      have len : ∀ {t : Bytes}, t ≠ [] → 1 ≤ t.length := fun h => List.length_pos_iff.2 h
      simp only [List.head?_cons, Option.some.injEq, List.drop_one, List.tail_cons] at h
      split at h
      · rename_i hc
        subst hc
        obtain ⟨h1, n, hn, rfl⟩ := h
        exact ⟨s, _, n, len h1, hn, Or.inr ⟨rfl, rfl⟩⟩
      · split at h
        · rename_i hc
          subst hc
          obtain ⟨h1, n, hn, rfl⟩ := h
          exact ⟨s, _, n, len h1, hn, Or.inl ⟨Or.inr rfl, rfl⟩⟩
        · obtain ⟨h1, n, hn, rfl⟩ := h
          exact ⟨c :: s, _, n, len h1, hn, Or.inl ⟨Or.inl rfl, rfl⟩⟩

theorem parseExponent_iff {s : Bytes} {e : Int} : parseExponent s = some e ↔ Integer s e := by
  rw [integer_iff]
  unfold parseExponent
  split
  · split
    · rename_i h; simp [h]
    · rename_i h; simp only [Option.map_eq_some_iff, parseDigits_iff, h, ne_eq, not_false_eq_true, true_and]; exact exists_congr fun _ => and_congr_right fun _ => eq_comm
  · split
    · split
      · rename_i h; simp [h]
      · rename_i h; simp only [Option.map_eq_some_iff, parseDigits_iff, h, ne_eq, not_false_eq_true, true_and]; exact exists_congr fun _ => and_congr_right fun _ => eq_comm
    · split
      · rename_i h; simp [h]
      · rename_i h; simp only [Option.map_eq_some_iff, parseDigits_iff, h, ne_eq, not_false_eq_true, true_and]; exact exists_congr fun _ => and_congr_right fun _ => eq_comm

theorem parseUintDec_iff {s : Bytes} {n : Nat} : parseUintDec s = some n ↔ s ≠ [] ∧ Numeral s.length s n ∧ n < 2 ^ 64 := by
  unfold parseUintDec
  by_cases hs : s = []
  · simp [hs]
  · rw [if_neg hs]
    cases hp : parseDigits 0 s with
    | none =>
      simp only [reduceCtorEq, false_iff]
      rintro ⟨-, h, -⟩
      rw [parseDigits_iff.2 h] at hp
      cases hp
    | some m =>
      have hm := parseDigits_iff.1 hp
      have : Numeral s.length s n → n = m := fun h => by rw [h.value, hm.value]
      dsimp only
      constructor
      · intro h
        split at h
        · injection h with h
          subst h
          exact ⟨hs, hm, by assumption⟩
        · cases h
      · rintro ⟨-, h, hb⟩
        obtain rfl := this h
        rw [if_pos hb]

theorem parseIntDec_iff {s : Bytes} {i : Int} : parseIntDec s = some i ↔ Integer s i ∧ -2 ^ 63 ≤ i ∧ i < 2 ^ 63 := by
  rw [integer_iff]
  cases s with
  | nil => simp [parseIntDec]
  | cons c s =>
    have key : ∀ t : Bytes, (match parseUintDec t with
        | none => none
        | some n => if n < 2 ^ 63 then some (n : Int) else none) = some i ↔
          (t ≠ [] ∧ ∃ n, Numeral t.length t n ∧ i = n) ∧ -2 ^ 63 ≤ i ∧ i < 2 ^ 63 := by
      intro t
      cases hp : parseUintDec t with
      | none =>
        simp only [reduceCtorEq, false_iff]
        rintro ⟨⟨h1, n, h2, rfl⟩, -, h3⟩
        rw [parseUintDec_iff.2 ⟨h1, h2, by omega⟩] at hp
        cases hp
      | some m =>
        obtain ⟨h1, h2, h3⟩ := parseUintDec_iff.1 hp
        dsimp only
        constructor
        · intro h
          split at h
          · injection h with h
            subst h
            exact ⟨⟨h1, m, h2, rfl⟩, by omega, by omega⟩
          · cases h
        · rintro ⟨⟨-, n, h4, rfl⟩, -, h5⟩
          have : n = m := by rw [h4.value, h2.value]
          subst this
          rw [if_pos (by omega)]
    have keyNeg : ∀ t : Bytes, (match parseUintDec t with
        | none => none
        | some n => if n ≤ 2 ^ 63 then some (-(n : Int)) else none) = some i ↔
          (t ≠ [] ∧ ∃ n, Numeral t.length t n ∧ i = -(n : Int)) ∧ -2 ^ 63 ≤ i ∧ i < 2 ^ 63 := by
      intro t
      cases hp : parseUintDec t with
      | none =>
        simp only [reduceCtorEq, false_iff]
        rintro ⟨⟨h1, n, h2, rfl⟩, h3, -⟩
        rw [parseUintDec_iff.2 ⟨h1, h2, by omega⟩] at hp
        cases hp
      | some m =>
        obtain ⟨h1, h2, h3⟩ := parseUintDec_iff.1 hp
        dsimp only
        constructor
        · intro h
          split at h
          · injection h with h
            subst h
            exact ⟨⟨h1, m, h2, rfl⟩, by omega, by omega⟩
          · cases h
        · rintro ⟨⟨-, n, h4, rfl⟩, h5, -⟩
          have : n = m := by rw [h4.value, h2.value]
          subst this
          rw [if_pos (by omega)]
    simp only [List.head?_cons, Option.some.injEq, List.drop_one, List.tail_cons, parseIntDec]
    by_cases h1 : c = 45
    · rw [if_pos h1, if_pos h1]
      exact keyNeg s
    · rw [if_neg h1, if_neg h1]
      by_cases h2 : c = 43
      · rw [if_pos h2, if_pos h2]
        exact key s
      · rw [if_neg h2, if_neg h2]
        exact key (c :: s)

/-! ## Numbers with point and exponent -/

theorem digits_noDot {s : Bytes} (h : ∀ c ∈ s, 48 ≤ c.toNat ∧ c.toNat ≤ 57) : ∀ c ∈ s, c ≠ 46 := by
  intro c hc
  have := h c hc
  rintro rfl
  revert this
  decide

theorem parseDecimal_iff {s : Bytes} {d f : Nat} : parseDecimal s = some (d, f) ↔
    ∃ int frac, int ++ frac ≠ [] ∧ Numeral (int ++ frac).length (int ++ frac) d ∧ f = frac.length ∧
      ((s = int ∧ frac = []) ∨ s = int ++ b!"." ++ frac) := by
  constructor
  · intro h
    unfold parseDecimal at h
    split at h
    · split at h
      · cases h
      · rename_i hne
        obtain ⟨n, h1, h2⟩ := Option.map_eq_some_iff.1 h
        cases h2
        exact ⟨s, [], by simpa using hne, by simpa using parseDigits_iff.1 h1, rfl, Or.inl ⟨rfl, rfl⟩⟩
    · rename_i x fp hx
      split at h
      · cases h
      · rename_i hne
        obtain ⟨n, h1, h2⟩ := Option.map_eq_some_iff.1 h
        cases h2
        have he := List.takeWhile_append_dropWhile (p := fun c : UInt8 => decide (c ≠ 46)) (l := s)
        have hh := List.head_dropWhile_not (p := fun c : UInt8 => decide (c ≠ 46)) (l := s) (by rw [hx]; simp)
        simp only [hx, List.head_cons] at hh
        have hx46 : x = 46 := by simpa using hh
        subst hx46
        rw [hx] at he
        refine ⟨s.takeWhile (· ≠ 46), fp, ?_, parseDigits_iff.1 h1, rfl, Or.inr ?_⟩
        · intro hc
          have h3 := List.append_eq_nil_iff.1 hc
          rw [h3.2] at he
          rw [h3.1] at he
          exact hne he.symm
        · rw [List.append_assoc]
          exact he.symm
  · rintro ⟨int, frac, hne, hn, rfl, (⟨rfl, rfl⟩ | rfl)⟩
    · rw [List.append_nil] at hne hn
      unfold parseDecimal
      rw [dropWhile_noDot (digits_noDot hn.digits)]
      dsimp only
      rw [if_neg hne, parseDigits_iff.2 hn]
      rfl
    · unfold parseDecimal
      have hi : ∀ c ∈ int, c ≠ 46 := digits_noDot fun c hc => hn.digits c (List.mem_append_left _ hc)
      obtain ⟨h1, h2⟩ := span_dot hi frac
      rw [show int ++ b!"." ++ frac = int ++ 46 :: frac by rw [List.append_assoc]; rfl, h1, h2]
      have hne' : int ++ 46 :: frac ≠ [46] := by
        intro h
        have hl := congrArg List.length h
        simp only [List.length_append, List.length_cons, List.length_nil] at hl
        apply hne
        rw [← List.length_eq_zero_iff, List.length_append]
        omega
      dsimp only
      rw [if_neg hne', parseDigits_iff.2 hn]
      rfl

theorem span_exp {a : Bytes} (h : ∀ c ∈ a, c ≠ 101 ∧ c ≠ 69) {l : UInt8} (hl : l = 101 ∨ l = 69) (b : Bytes) :
    (a ++ l :: b).dropWhile (fun c => c ≠ 101 ∧ c ≠ 69) = l :: b ∧ (a ++ l :: b).takeWhile (fun c => c ≠ 101 ∧ c ≠ 69) = a := by
  induction a with
  | nil => rcases hl with rfl | rfl <;> simp
  | cons c a ih =>
    have hc := h c (List.mem_cons_self ..)
    have := ih fun d hd => h d (List.mem_cons_of_mem _ hd)
    simp only [List.cons_append, List.dropWhile_cons, List.takeWhile_cons, hc, ne_eq, not_false_eq_true, and_self, decide_true, if_true]
    exact ⟨this.1, by rw [this.2]⟩

theorem parseNumeral_iff {s : Bytes} {d f : Nat} {e : Int} : parseNumeral s = some (d, f, e) ↔
    ∃ m x, parseDecimal m = some (d, f) ∧ s = m ++ x ∧ ((x = [] ∧ e = 0) ∨ ∃ l y, x = l :: y ∧ (l = 101 ∨ l = 69) ∧ Integer y e) := by
  constructor
  · intro h
    unfold parseNumeral at h
    split at h
    · obtain ⟨⟨d', f'⟩, h1, h2⟩ := Option.map_eq_some_iff.1 h
      cases h2
      exact ⟨s, [], h1, by simp, Or.inl ⟨rfl, rfl⟩⟩
    · rename_i l x hx
      split at h
      · rename_i d' f' e' h1 h2
        injection h with h
        simp only [Prod.mk.injEq] at h
        obtain ⟨rfl, rfl, rfl⟩ := h
        have he := List.takeWhile_append_dropWhile (p := fun c : UInt8 => decide (c ≠ 101 ∧ c ≠ 69)) (l := s)
        have hh := List.head_dropWhile_not (p := fun c : UInt8 => decide (c ≠ 101 ∧ c ≠ 69)) (l := s) (by rw [hx]; simp)
        simp only [hx, List.head_cons] at hh
        rw [hx] at he
        refine ⟨_, l :: x, h1, he.symm, Or.inr ⟨l, x, rfl, ?_, parseExponent_iff.1 h2⟩⟩
        have : ¬ (l ≠ 101 ∧ l ≠ 69) := by simpa using hh
        by_contra hc
        exact this ⟨fun h => hc (Or.inl h), fun h => hc (Or.inr h)⟩
      · cases h
  · rintro ⟨m, x, h1, rfl, (⟨rfl, rfl⟩ | ⟨l, y, rfl, hl, hy⟩)⟩
    · rw [List.append_nil]
      exact parseNumeral_decimal h1
    · unfold parseNumeral
      obtain ⟨h2, h3⟩ := span_exp (parseDecimal_noExp h1) hl y
      rw [h2, h3]
      dsimp only
      rw [h1, parseExponent_iff.2 hy]

theorem number_iff {s : Bytes} {v : ℚ} : Number s v ↔ ∃ d f e, parseNumeral s = some (d, f, e) ∧ v = d * 10 ^ (e - f) := by
  simp only [parseNumeral_iff, parseDecimal_iff]
  constructor
  · rintro ⟨int, frac, exp, n, e, h1, h2, h3, h4, h5⟩
    rcases h3 with ⟨rfl, hf⟩ | rfl
    · exact ⟨n, frac.length, e, ⟨int, exp, ⟨int, frac, h1, h2, rfl, Or.inl ⟨rfl, hf⟩⟩, rfl, h4⟩, h5⟩
    · exact ⟨n, frac.length, e, ⟨_, exp, ⟨int, frac, h1, h2, rfl, Or.inr rfl⟩, rfl, h4⟩, h5⟩
  · rintro ⟨d, f, e, ⟨m, x, ⟨int, frac, h1, h2, rfl, h3⟩, rfl, h4⟩, h5⟩
    refine ⟨int, frac, x, d, e, h1, h2, ?_, h4, h5⟩
    rcases h3 with ⟨rfl, hf⟩ | rfl
    · exact Or.inl ⟨rfl, hf⟩
    · exact Or.inr rfl

/-- A number does not begin with a sign. -/
theorem parseNumeral_head {s : Bytes} {p : Nat × Nat × Int} (h : parseNumeral s = some p) : s.head? ≠ some 45 ∧ s.head? ≠ some 43 := by
  obtain ⟨d, f, e⟩ := p
  obtain ⟨m, x, h1, rfl, -⟩ := parseNumeral_iff.1 h
  obtain ⟨int, frac, hne, hn, -, h2⟩ := parseDecimal_iff.1 h1
  rcases h2 with ⟨rfl, rfl⟩ | rfl
  · rw [List.append_nil] at hne hn
    have := numeral_head hn
    rwa [List.head?_append_of_ne_nil _ hne]
  · cases int with
    | nil => simp
    | cons c int =>
      have := hn.digits c (by simp)
      simp only [List.cons_append, List.head?_cons, ne_eq, Option.some.injEq]
      constructor <;> (rintro rfl; revert this; decide)

theorem signed_iff {s : Bytes} {neg : Bool} {v : ℚ} :
    Signed s neg v ↔ neg = decide (s.head? = some 45) ∧
      Number (if s.head? = some 45 ∨ s.head? = some 43 then s.drop 1 else s) v := by
  constructor
  · rintro ⟨x, hx, (⟨rfl | rfl, rfl⟩ | ⟨rfl, rfl⟩)⟩
    · obtain ⟨d, f, e, hp, -⟩ := number_iff.1 hx
      have := parseNumeral_head hp
      simp [this.1, this.2, hx]
    · exact ⟨rfl, hx⟩
    · exact ⟨rfl, hx⟩
  · rintro ⟨rfl, h⟩
    cases s with
    | nil => exact ⟨[], by simpa using h, Or.inl ⟨Or.inl rfl, rfl⟩⟩
    | cons c s =>
      simp only [List.head?_cons, Option.some.injEq, List.drop_one, List.tail_cons] at h ⊢
      by_cases h1 : c = 45
      · subst h1
        exact ⟨s, by simpa using h, Or.inr ⟨rfl, by decide⟩⟩
      · by_cases h2 : c = 43
        · subst h2
          exact ⟨s, by simpa using h, Or.inl ⟨Or.inr rfl, by decide⟩⟩
        · exact ⟨c :: s, by simpa [h1, h2] using h, Or.inl ⟨Or.inl rfl, by simpa using h1⟩⟩

theorem cast_unitsOne : ((unitsOne : Nat) : ℚ) = 2 ^ 1074 := by
  unfold unitsOne
  rw [Nat.cast_pow, Nat.cast_ofNat]

/-- The value of a number as a fraction. -/
theorem value_fraction (d f : Nat) (e : Int) :
    (d : ℚ) * 10 ^ (e - f) * 2 ^ 1074 = ((d * 10 ^ e.toNat * unitsOne : Nat) : ℚ) / ((10 ^ (f + (-e).toNat) : Nat) : ℚ) := by
  have h10 : (10 : ℚ) ≠ 0 := by norm_num
  rw [eq_div_iff (by positivity), ← cast_unitsOne]
  push_cast
  rw [show e - (f : Int) = (e.toNat : Int) - ((f + (-e).toNat : Nat) : Int) by omega, zpow_sub₀ h10, zpow_natCast, zpow_natCast]
  field_simp

theorem small_eq (c : UInt8) : small c = lowerASCII c := by
  unfold small lowerASCII
  have h : (65 ≤ c ∧ c ≤ 90) ↔ (65 ≤ c.toNat ∧ c.toNat ≤ 90) := by
    constructor <;> (rintro ⟨a, b⟩; exact ⟨a, b⟩)
  by_cases hc : 65 ≤ c.toNat ∧ c.toNat ≤ 90
  · rw [if_pos hc, if_pos (h.2 hc)]
    apply UInt8.toNat_inj.1
    simp
  · rw [if_neg hc, if_neg (fun x => hc (h.1 x))]

theorem parseSpecial_iff {s : Bytes} {x : GoFloat} : parseSpecial s = some x ↔
    (s.map small = b!"nan" ∧ x = .nan) ∨ (s.map small ∈ [b!"inf", b!"+inf", b!"infinity", b!"+infinity"] ∧ x = .inf false) ∨
      (s.map small ∈ [b!"-inf", b!"-infinity"] ∧ x = .inf true) := by
  have hm : s.map small = s.map lowerASCII := List.map_congr_left fun c _ => small_eq c
  rw [hm]
  unfold parseSpecial
  dsimp only
  generalize s.map lowerASCII = l
  by_cases h1 : l = b!"nan"
  · rw [if_pos h1]
    have h2 : l ∉ [b!"inf", b!"+inf", b!"infinity", b!"+infinity"] := by subst h1; decide
    have h3 : l ∉ [b!"-inf", b!"-infinity"] := by subst h1; decide
    simp only [h1, true_and]
    rw [h1] at h2 h3
    simp only [h2, h3, false_and, or_false, Option.some.injEq, eq_comm]
  · rw [if_neg h1]
    by_cases h2 : l ∈ [b!"inf", b!"+inf", b!"infinity", b!"+infinity"]
    · rw [if_pos h2]
      have h3 : l ∉ [b!"-inf", b!"-infinity"] := by
        simp only [List.mem_cons, List.not_mem_nil, or_false] at h2
        rcases h2 with rfl | rfl | rfl | rfl <;> decide
      simp only [h1, h2, h3, false_and, true_and, false_or, or_false, Option.some.injEq, eq_comm]
    · rw [if_neg h2]
      by_cases h3 : l ∈ [b!"-inf", b!"-infinity"]
      · rw [if_pos h3]
        simp only [h1, h2, h3, false_and, true_and, false_or, Option.some.injEq, eq_comm]
      · rw [if_neg h3]
        simp only [h1, h2, h3, false_and, or_self, reduceCtorEq]

/-- What names infinity or not-a-number is no number. -/
theorem special_noNumber {s : Bytes} {x : GoFloat} (h : parseSpecial s = some x) :
    parseNumeral (if s.head? = some 45 ∨ s.head? = some 43 then s.drop 1 else s) = none := by
  have hnum : ∀ (c : UInt8) (t : Bytes), (small c = 105 ∨ small c = 110) → parseNumeral (c :: t) = none := by
    intro c t hc
    cases hp : parseNumeral (c :: t) with
    | none => rfl
    | some p =>
      exfalso
      obtain ⟨d, f, e⟩ := p
      obtain ⟨m, y, h1, h2, -⟩ := parseNumeral_iff.1 hp
      obtain ⟨int, frac, hne, hn, -, h3⟩ := parseDecimal_iff.1 h1
      have hsm : ∀ a : UInt8, 48 ≤ a.toNat ∧ a.toNat ≤ 57 → ¬ (small a = 105 ∨ small a = 110) := by
        intro a ha
        unfold small
        rw [if_neg (by omega)]
        rintro (rfl | rfl) <;> (revert ha; decide)
      rcases h3 with ⟨rfl, rfl⟩ | rfl
      · cases m with
        | nil => simp at hne
        | cons a m =>
          simp only [List.cons_append, List.cons.injEq] at h2
          exact hsm a (hn.digits a (by simp)) (h2.1 ▸ hc)
      · cases int with
        | nil =>
          have : c = 46 := by
            have := congrArg List.head? h2
            simpa using this
          subst this
          revert hc
          decide
        | cons a int =>
          simp only [List.cons_append, List.cons.injEq] at h2
          exact hsm a (hn.digits a (by simp)) (h2.1 ▸ hc)
  have hsign : ∀ c : UInt8, (small c = 45 → c = 45) ∧ (small c = 43 → c = 43) := by
    intro c
    unfold small
    split
    · rename_i hc
      constructor <;>
      · intro h
        have := congrArg UInt8.toNat h
        simp at this
        omega
    · exact ⟨id, id⟩
  have hne : ∀ c : UInt8, (small c = 105 ∨ small c = 110) → c ≠ 45 ∧ c ≠ 43 := by
    intro c hc
    constructor <;> (rintro rfl; revert hc; decide)
  -- the first letter after the sign
  have main : ∀ (c : UInt8) (t : Bytes), s = c :: t →
      ((small c = 105 ∨ small c = 110) ∨ (small c = 45 ∨ small c = 43) ∧ ∃ c' t', t = c' :: t' ∧ small c' = 105) →
      parseNumeral (if s.head? = some 45 ∨ s.head? = some 43 then s.drop 1 else s) = none := by
    rintro c t rfl (hc | ⟨hc, c', t', rfl, hc'⟩)
    · have := hne c hc
      simp only [List.head?_cons, Option.some.injEq, this.1, this.2, or_self, if_false]
      exact hnum c t hc
    · have : c = 45 ∨ c = 43 := hc.imp (hsign c).1 (hsign c).2
      simp only [List.head?_cons, Option.some.injEq, this, if_true, List.drop_one, List.tail_cons]
      exact hnum c' t' (Or.inl hc')
  have shape : ∀ w : Bytes, s.map small = w → (∃ a b, w = a :: b ∧ ((a = 105 ∨ a = 110) ∨ (a = 45 ∨ a = 43) ∧ ∃ a' b', b = a' :: b' ∧ a' = 105)) →
      parseNumeral (if s.head? = some 45 ∨ s.head? = some 43 then s.drop 1 else s) = none := by
    rintro w hw ⟨a, b, rfl, h⟩
    cases s with
    | nil => cases hw
    | cons c t =>
      simp only [List.map_cons, List.cons.injEq] at hw
      obtain ⟨rfl, rfl⟩ := hw
      refine main c t rfl ?_
      rcases h with h | ⟨h, a', b', hb, rfl⟩
      · exact Or.inl h
      · refine Or.inr ⟨h, ?_⟩
        cases t with
        | nil => cases hb
        | cons c' t' =>
          simp only [List.map_cons, List.cons.injEq] at hb
          exact ⟨c', t', rfl, hb.1⟩
  rcases parseSpecial_iff.1 h with ⟨h, -⟩ | ⟨h, -⟩ | ⟨h, -⟩
  · exact shape _ h ⟨_, _, rfl, Or.inl (by decide)⟩
  · simp only [List.mem_cons, List.not_mem_nil, or_false] at h
    rcases h with h | h | h | h
    · exact shape _ h ⟨_, _, rfl, Or.inl (by decide)⟩
    · exact shape _ h ⟨_, _, rfl, Or.inr ⟨by decide, _, _, rfl, rfl⟩⟩
    · exact shape _ h ⟨_, _, rfl, Or.inl (by decide)⟩
    · exact shape _ h ⟨_, _, rfl, Or.inr ⟨by decide, _, _, rfl, rfl⟩⟩
  · simp only [List.mem_cons, List.not_mem_nil, or_false] at h
    rcases h with h | h
    · exact shape _ h ⟨_, _, rfl, Or.inr ⟨by decide, _, _, rfl, rfl⟩⟩
    · exact shape _ h ⟨_, _, rfl, Or.inr ⟨by decide, _, _, rfl, rfl⟩⟩

theorem parseFloat_text {p lo hi : Nat} (hp : 0 < p) {s : Bytes} {x : GoFloat} (narrow : Bool)
    (hround : ∀ num den, (if narrow then round32 num den else round64 num den) = roundTo p lo num den)
    (hhi : (if narrow then 128 else 1024) = hi) : parseFloat narrow s = some x ↔ FloatText p lo hi s x := by
  unfold parseFloat FloatText
  dsimp only
  simp only [hround, hhi, signed_iff, number_iff]
  cases hn : parseNumeral (if s.head? = some 45 ∨ s.head? = some 43 then s.drop 1 else s) with
  | none =>
    dsimp only
    rw [parseSpecial_iff]
    constructor
    · exact Or.inr
    · rintro (⟨neg, v, k, ⟨-, d, f, e, h, -⟩, -⟩ | h)
      · cases h
      · exact h
  | some q =>
    obtain ⟨d, f, e⟩ := q
    dsimp only
    have hnear : ∀ k, Nearest p lo ((d : ℚ) * 10 ^ (e - (f : Int)) * 2 ^ 1074) k ↔
        k = roundTo p lo (d * 10 ^ e.toNat * unitsOne) (10 ^ (f + (-e).toNat)) :=
      fun k => nearest_iff hp (by positivity) (value_fraction d f e)
    constructor
    · intro h
      split at h
      · rename_i hlt
        injection h with h
        exact Or.inl ⟨_, _, _, ⟨rfl, d, f, e, rfl, rfl⟩, (hnear _).2 rfl, hlt, h.symm⟩
      · cases h
    · rintro (⟨neg, v, k, ⟨rfl, d', f', e', h, rfl⟩, h2, h3, rfl⟩ | h)
      · simp only [Option.some.injEq, Prod.mk.injEq] at h
        obtain ⟨rfl, rfl, rfl⟩ := h
        obtain rfl := (hnear k).1 h2
        rw [if_pos h3]
      · rw [special_noNumber (parseSpecial_iff.2 h)] at hn
        cases hn

theorem parseFloat_text32 (s : Bytes) (x : GoFloat) : parseFloat true s = some x ↔ Float32Text s x :=
  parseFloat_text (by decide) true (fun _ _ => rfl) rfl

theorem parseFloat_text64 (s : Bytes) (x : GoFloat) : parseFloat false s = some x ↔ Float64Text s x :=
  parseFloat_text (by decide) false (fun _ _ => rfl) rfl

/-! ## Durations and truth values -/

theorem nanoseconds_iff (x : GoFloat) (d : Int) : Nanoseconds x d ↔ d = x.mulMillion.toInt64 := by
  have hu : unitsOne = 2 ^ 1074 := rfl
  have hpow : (2 : Nat) ^ (63 + 1074) = 2 ^ 63 * unitsOne := by rw [hu, ← Nat.pow_add]
  have hlt : ∀ m : Nat, m / unitsOne < 2 ^ 63 ↔ m < 2 ^ (63 + 1074) := by
    intro m
    rw [hpow, Nat.div_lt_iff_lt_mul unitsOne_pos]
  have hbig : (2 : Nat) ^ (63 + 1074) ≤ 2 ^ (1024 + 1074) := Nat.pow_le_pow_right (by decide) (by decide)
  unfold Nanoseconds
  cases x with
  | fin neg k =>
    have hnear : ∀ m, Nearest 53 0 ((k : ℚ) * 1000000) m ↔ m = round64 (k * 1000000) 1 := by
      intro m
      exact nearest_iff (by decide) (by decide) (by push_cast; ring)
    simp only [GoFloat.mulMillion]
    constructor
    · rintro (⟨neg', k', m, h1, h2, h3, rfl⟩ | ⟨h, rfl⟩)
      · injection h1 with h4 h5
        subst h4 h5
        obtain rfl := (hnear m).1 h2
        rw [if_pos (Nat.lt_of_lt_of_le h3 hbig)]
        simp only [GoFloat.toInt64, if_pos ((hlt _).2 h3)]
        rw [← hu]
        cases neg <;> simp
      · obtain ⟨m, h2, h3⟩ := h neg k rfl
        obtain rfl := (hnear m).1 h2
        split
        · simp only [GoFloat.toInt64]
          rw [if_neg (fun hc => absurd ((hlt _).1 hc) (Nat.not_lt.2 h3))]
        · rfl
    · intro h
      by_cases h3 : round64 (k * 1000000) 1 < 2 ^ (63 + 1074)
      · left
        refine ⟨neg, k, _, rfl, (hnear _).2 rfl, h3, ?_⟩
        rw [h, if_pos (Nat.lt_of_lt_of_le h3 hbig)]
        simp only [GoFloat.toInt64, if_pos ((hlt _).2 h3)]
        rw [← hu]
        cases neg <;> simp
      · right
        refine ⟨?_, ?_⟩
        · intro neg' k' h1
          injection h1 with h4 h5
          subst h4 h5
          exact ⟨_, (hnear _).2 rfl, Nat.not_lt.1 h3⟩
        · rw [h]
          split
          · simp only [GoFloat.toInt64]
            rw [if_neg (fun hc => h3 ((hlt _).1 hc))]
          · rfl
  | nan =>
    constructor
    · rintro (⟨neg', k', m, h1, -⟩ | ⟨-, rfl⟩)
      · cases h1
      · rfl
    · rintro rfl
      exact Or.inr ⟨by rintro _ _ ⟨⟩, rfl⟩
  | inf b =>
    constructor
    · rintro (⟨neg', k', m, h1, -⟩ | ⟨-, rfl⟩)
      · cases h1
      · rfl
    · rintro rfl
      exact Or.inr ⟨by rintro _ _ ⟨⟩, rfl⟩

theorem parseBool_iff (s : Bytes) (b : Bool) : parseBool s = some b ↔ BoolText s b := by
  unfold parseBool BoolText
  by_cases h1 : s ∈ [b!"1", b!"t", b!"T", b!"true", b!"TRUE", b!"True"]
  · have h2 : s ∉ [b!"0", b!"f", b!"F", b!"false", b!"FALSE", b!"False"] := by
      simp only [List.mem_cons, List.not_mem_nil, or_false] at h1
      rcases h1 with rfl | rfl | rfl | rfl | rfl | rfl <;> decide
    rw [if_pos h1]
    simp only [h1, h2, true_and, false_and, or_false, Option.some.injEq, eq_comm]
  · rw [if_neg h1]
    by_cases h2 : s ∈ [b!"0", b!"f", b!"F", b!"false", b!"FALSE", b!"False"]
    · rw [if_pos h2]
      simp only [h1, h2, true_and, false_and, false_or, Option.some.injEq, eq_comm]
    · rw [if_neg h2]
      simp only [h1, h2, false_and, or_self, reduceCtorEq]

theorem wrapInt_iff {bits : Nat} (hb : 0 < bits) (i j : Int) :
    j = wrapInt bits i ↔ (2 ^ bits : Int) ∣ i - j ∧ -2 ^ (bits - 1) ≤ j ∧ j < 2 ^ (bits - 1) := by
  obtain ⟨n, rfl⟩ : ∃ n, bits = n + 1 := ⟨bits - 1, by omega⟩
  simp only [Nat.add_sub_cancel]
  unfold wrapInt
  have hpos : (0 : Int) < 2 ^ n := by positivity
  have hm : ((2 ^ (n + 1) : Nat) : Int) = 2 * 2 ^ n := by push_cast; ring
  have hm' : (2 ^ (n + 1) : Int) = 2 * 2 ^ n := by ring
  have h1 : -2 ^ n ≤ i.bmod (2 ^ (n + 1)) := by
    have := Int.le_bmod (x := i) (m := 2 ^ (n + 1)) (by positivity)
    omega
  have h2 : i.bmod (2 ^ (n + 1)) < 2 ^ n := by
    have := Int.bmod_lt (x := i) (m := 2 ^ (n + 1)) (by positivity)
    omega
  have h3 : (2 ^ (n + 1) : Int) ∣ i - i.bmod (2 ^ (n + 1)) := by
    have := Int.dvd_self_sub_bmod (x := i) (m := 2 ^ (n + 1))
    rw [hm] at this
    rwa [hm']
  constructor
  · rintro rfl
    exact ⟨h3, h1, h2⟩
  · rintro ⟨h4, h5, h6⟩
    have h7 := Int.dvd_sub h4 h3
    obtain ⟨c, hc⟩ := h7
    rw [hm'] at hc
    have : i.bmod (2 ^ (n + 1)) - j = 2 * 2 ^ n * c := by omega
    rcases Int.lt_trichotomy c 0 with h | h | h
    · have : 2 * (2 : Int) ^ n * c ≤ 2 * 2 ^ n * (-1) := Int.mul_le_mul_of_nonneg_left (by omega) (by omega)
      omega
    · subst h
      omega
    · have : 2 * (2 : Int) ^ n * 1 ≤ 2 * 2 ^ n * c := Int.mul_le_mul_of_nonneg_left (by omega) (by omega)
      omega

theorem wrapUint_iff (bits n m : Nat) : m = wrapUint bits n ↔ (2 ^ bits : Int) ∣ (n : Int) - m ∧ m < 2 ^ bits := by
  unfold wrapUint
  have hpos : 0 < 2 ^ bits := by positivity
  constructor
  · rintro rfl
    refine ⟨?_, Nat.mod_lt _ hpos⟩
    have := Nat.div_add_mod n (2 ^ bits)
    refine ⟨((n / 2 ^ bits : Nat) : Int), ?_⟩
    have h : ((2 ^ bits * (n / 2 ^ bits) + n % 2 ^ bits : Nat) : Int) = n := by rw [this]
    push_cast at h ⊢
    omega
  · rintro ⟨h1, h2⟩
    have h3 : ((2 ^ bits : Nat) : Int) ∣ (n : Int) - m := by push_cast; exact h1
    have h5 : (n : Int) % ((2 ^ bits : Nat) : Int) = (m : Int) % ((2 ^ bits : Nat) : Int) := Int.emod_eq_emod_iff_emod_sub_eq_zero.2 (Int.emod_eq_zero_of_dvd h3)
    have h6 : n % 2 ^ bits = m % 2 ^ bits := by exact_mod_cast h5
    rw [h6, Nat.mod_eq_of_lt h2]

end Appdash
