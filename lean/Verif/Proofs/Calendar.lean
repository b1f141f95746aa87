import Verif.Model.SampleData
import Verif.Spec.Event

/-!
# The calendar: from a day number to a date and back
-/

namespace Appdash

theorem cycle_bounds (doe : Int) (h0 : 0 ≤ doe) (h1 : doe < 146097) :
    let c := doe / 36524 - doe / 36524 / 4
    let r := doe - 36524 * c
    let q := r / 1461
    let r2 := r - 1461 * q
    let n := r2 / 365 - r2 / 365 / 4
    let doy := r2 - 365 * n
    let yoe := 100 * c + 4 * q + n
    0 ≤ yoe ∧ yoe < 400 ∧ 0 ≤ doy ∧ doy ≤ 365 ∧ (doy = 365 → (yoe + 1) % 4 = 0 ∧ ((yoe + 1) % 100 ≠ 0 ∨ (yoe + 1) % 400 = 0)) ∧
    365 * yoe + yoe / 4 - yoe / 100 + doy = doe := by
  intro c r q r2 n doy yoe
  have hc : 0 ≤ c ∧ c ≤ 3 ∧ 0 ≤ r ∧ r < 36525 ∧ (r = 36524 → c = 3) := by omega
  have hr : r = doe - 36524 * c := rfl
  have hq : 0 ≤ q ∧ q ≤ 24 ∧ 0 ≤ r2 ∧ r2 < 1461 ∧ (r2 = 1460 → q = 24 → r = 36524) := by omega
  have hr2 : r2 = r - 1461 * q := rfl
  have hn : 0 ≤ n ∧ n ≤ 3 ∧ 0 ≤ doy ∧ doy ≤ 365 ∧ (doy = 365 → n = 3 ∧ r2 = 1460) := by omega
  have hd : doy = r2 - 365 * n := rfl
  have hy : yoe = 100 * c + 4 * q + n := rfl
  clear_value c r q r2 n doy yoe
  refine ⟨by omega, by omega, by omega, by omega, ?_, ?_⟩
  · intro h
    have := hn.2.2.2.2 h
    omega
  · have : yoe / 100 = c := by omega
    have : yoe / 4 = 25 * c + q := by omega
    omega

theorem monthLengths_leap {y : Nat} (h : y % 4 = 0 ∧ (y % 100 ≠ 0 ∨ y % 400 = 0)) : (monthLengths y).getD 1 0 = 29 := by
  have : 4 ∣ y ∧ (¬ 100 ∣ y ∨ 400 ∣ y) := by omega
  simp [monthLengths, this]

theorem monthLengths_feb (y : Nat) : 28 ≤ (monthLengths y).getD 1 0 := by
  simp only [monthLengths, List.getD_cons_succ, List.getD_cons_zero]
  split <;> omega

/-- `date` inverts `days`, and gives dates that exist. -/
theorem date_days (z : Int) (h : -719468 ≤ z) :
    ∃ y m d, GoTime.date z = (y, m, d) ∧ GoTime.days y m d = z ∧ 1 ≤ m ∧ m ≤ 12 ∧ 1 ≤ d ∧ d ≤ (monthLengths y).getD (m - 1) 0 := by
  have hb := cycle_bounds ((z + 719468) % 146097) (by omega) (by omega)
  dsimp only at hb
  simp only [GoTime.date]
  generalize he : (z + 719468) / 146097 = era
  generalize hd : (z + 719468) % 146097 = doe at hb ⊢
  have hz : z + 719468 = 146097 * era + doe := by omega
  have he0 : 0 ≤ era := by omega
  clear he hd h
  generalize doe / 36524 - doe / 36524 / 4 = c at hb ⊢
  generalize (doe - 36524 * c) / 1461 = q at hb ⊢
  generalize (doe - 36524 * c - 1461 * q) / 365 - (doe - 36524 * c - 1461 * q) / 365 / 4 = n at hb ⊢
  generalize doe - 36524 * c - 1461 * q - 365 * n = doy at hb ⊢
  have hyoe : 400 * era + 100 * c + 4 * q + n = 400 * era + (100 * c + 4 * q + n) := by omega
  simp only [hyoe]
  generalize 100 * c + 4 * q + n = yoe at hb ⊢
  clear hyoe c q n
  obtain ⟨h1, h2, h3, h4, h5, h6⟩ := hb
  refine ⟨_, _, _, rfl, ?_⟩
  have hmp : ∃ k : Nat, k < 12 ∧ (5 * doy + 2) / 153 = k := ⟨((5 * doy + 2) / 153).toNat, by omega, by omega⟩
  obtain ⟨k, hk, hmp⟩ := hmp
  simp only [hmp]
  obtain ⟨e, rfl⟩ : ∃ e : Nat, era = e := ⟨era.toNat, by omega⟩
  obtain ⟨w, rfl⟩ : ∃ w : Nat, yoe = w := ⟨yoe.toNat, by omega⟩
  obtain ⟨v, rfl⟩ : ∃ v : Nat, doy = v := ⟨doy.toNat, by omega⟩
  by_cases hk10 : k < 10
  · have e1 : (if (k : Int) < 10 then (k : Int) + 3 else (k : Int) - 9) = ((k + 3 : Nat) : Int) := by
      rw [if_pos (by omega)]; omega
    rw [e1, if_neg (by omega)]
    have e2 : ((400 * (e : Int) + w + 0)).toNat = 400 * e + w := by omega
    have e3 : ((v : Int) - (153 * (k : Int) + 2) / 5 + 1).toNat = v + 1 - (153 * k + 2) / 5 := by omega
    rw [e2, e3, Int.toNat_natCast]
    refine ⟨?_, by omega, by omega, by omega, ?_⟩
    · simp only [GoTime.days]
      rw [if_neg (by omega), if_neg (by omega)]
      omega
    · have : k = 0 ∨ k = 1 ∨ k = 2 ∨ k = 3 ∨ k = 4 ∨ k = 5 ∨ k = 6 ∨ k = 7 ∨ k = 8 ∨ k = 9 := by omega
      rcases this with rfl | rfl | rfl | rfl | rfl | rfl | rfl | rfl | rfl | rfl <;> simp [monthLengths] <;> omega
  · have e1 : (if (k : Int) < 10 then (k : Int) + 3 else (k : Int) - 9) = ((k - 9 : Nat) : Int) := by
      rw [if_neg (by omega)]; omega
    rw [e1, if_pos (by omega)]
    have e2 : ((400 * (e : Int) + w + 1)).toNat = 400 * e + w + 1 := by omega
    have e3 : ((v : Int) - (153 * (k : Int) + 2) / 5 + 1).toNat = v + 1 - (153 * k + 2) / 5 := by omega
    rw [e2, e3, Int.toNat_natCast]
    refine ⟨?_, by omega, by omega, by omega, ?_⟩
    · simp only [GoTime.days]
      rw [if_pos (by omega), if_pos (by omega)]
      omega
    · have : k = 10 ∨ k = 11 := by omega
      rcases this with rfl | rfl
      · simp [monthLengths]; omega
      · have h28 := monthLengths_feb (400 * e + w + 1)
        by_cases hl : v = 365
        · rw [show 11 - 9 - 1 = 1 from rfl, monthLengths_leap (by omega)]
          omega
        · rw [show 11 - 9 - 1 = 1 from rfl]
          omega

/-- The time made from an instant has that instant, exists, and is of a year before 10000 if the instant is before 2^63. -/
theorem ofInstant_spec (off i : Int) (hoff : off.natAbs < 1440) (h1 : -2 ^ 62 ≤ i) (h2 : i < 2 ^ 64) :
    (GoTime.ofInstant off i).instant = i ∧ tTime.holds (.scalar (.time (GoTime.ofInstant off i))) = true := by
  generalize hs : i / 1000000000 + off * 60 = s
  obtain ⟨y, m, d, e, h3, h4, h5, h6, h7⟩ := date_days (s / 86400) (by omega)
  have ht : GoTime.ofInstant off i = ⟨y, m, d, (s % 86400 / 3600).toNat, (s % 86400 / 60 % 60).toNat,
      (s % 86400 % 60).toNat, (i % 1000000000).toNat, off⟩ := by
    simp only [GoTime.ofInstant, hs, e]
  have hy : y < 10000 := by
    simp only [GoTime.days] at h3
    split at h3 <;> omega
  rw [ht]
  constructor
  · simp only [GoTime.instant, h3]
    omega
  · simp only [tTime, GType.holds, ScalarTy.holds, GoTime.exists, Bool.and_eq_true, decide_eq_true_eq]
    refine ⟨⟨⟨⟨⟨⟨⟨⟨?_, ?_⟩, h7⟩, ?_⟩, ?_⟩, ?_⟩, hy⟩, ?_⟩, hoff⟩ <;> omega

end Appdash
