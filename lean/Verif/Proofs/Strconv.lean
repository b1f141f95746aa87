import Verif.Model.TimeFmt

/-! # Round trips of the text conversions -/

namespace Appdash

theorem digitByte_toNat (n : Nat) : (digitByte n).toNat = 48 + n % 10 := by
  simp only [digitByte]
  rw [UInt8.toNat_ofNat']
  omega

theorem digitVal_digitByte (n : Nat) : digitVal? (digitByte n) = some (n % 10) := by
  simp only [digitVal?, digitByte_toNat]
  rw [if_pos (by omega)]
  congr 1; omega

theorem parseDigits_append (acc : Nat) (s t : Bytes) :
    parseDigits acc (s ++ t) = (parseDigits acc s).bind fun n => parseDigits n t := by
  induction s generalizing acc with
  | nil => rfl
  | cons c s ih =>
    simp only [List.cons_append, parseDigits]
    cases digitVal? c with
    | none => rfl
    | some d => exact ih _

theorem parseDigits_formatDecAux (fuel n : Nat) (h : n < fuel) : parseDigits 0 (formatDecAux fuel n) = some n := by
  induction fuel generalizing n with
  | zero => omega
  | succ fuel ih =>
    simp only [formatDecAux]
    split
    · rename_i h10
      simp only [parseDigits, digitVal_digitByte]
      congr 1; omega
    · rename_i h10
      rw [parseDigits_append, ih _ (by omega)]
      simp only [Option.bind_some, parseDigits, digitVal_digitByte]
      congr 1; omega

theorem formatDec_ne_nil (n : Nat) : formatDec n ≠ [] := by
  simp only [formatDec, formatDecAux]
  split <;> simp

theorem parseUintDec_formatDec (n : Nat) (h : n < 2 ^ 64) : parseUintDec (formatDec n) = some n := by
  simp only [parseUintDec, formatDec_ne_nil, if_false]
  rw [show formatDec n = formatDecAux (n + 1) n from rfl, parseDigits_formatDecAux _ _ (by omega)]
  simp only [h, if_true]

theorem formatDecAux_head (fuel n : Nat) (h : n < fuel) :
    ∃ m s, formatDecAux fuel n = digitByte m :: s := by
  induction fuel generalizing n with
  | zero => omega
  | succ fuel ih =>
    simp only [formatDecAux]
    split
    · exact ⟨n, [], rfl⟩
    · obtain ⟨m, s, hs⟩ := ih (n / 10) (by omega)
      exact ⟨m, s ++ [digitByte n], by rw [hs]; rfl⟩

theorem digitByte_ne (n : Nat) (c : UInt8) (h : c.toNat < 48 ∨ 57 < c.toNat) : digitByte n ≠ c := by
  intro hc
  have := digitByte_toNat n
  rw [hc] at this
  omega

theorem parseIntDec_formatInt (i : Int) (h1 : -2 ^ 63 ≤ i) (h2 : i < 2 ^ 63) :
    parseIntDec (formatInt i) = some i := by
  cases i with
  | ofNat n =>
    have hn : n < 2 ^ 63 := by
      have : (n : Int) < 2 ^ 63 := h2
      omega
    obtain ⟨m, s, hs⟩ := formatDecAux_head (n + 1) n (by omega)
    have hf : formatInt (Int.ofNat n) = digitByte m :: s := hs
    have hp := parseUintDec_formatDec n (by omega)
    rw [show formatDec n = digitByte m :: s from hs] at hp
    rw [hf]
    simp only [parseIntDec, digitByte_ne m 45 (by decide), digitByte_ne m 43 (by decide), if_false, hp]
    rw [if_pos hn]
    rfl
  | negSucc n =>
    have hn : n + 1 ≤ 2 ^ 63 := by omega
    simp only [formatInt, parseIntDec, if_true]
    rw [parseUintDec_formatDec (n + 1) (by omega)]
    simp only [hn, if_true]
    congr 1

theorem parseBool_formatBool (b : Bool) : parseBool (formatBool b) = some b := by
  cases b <;> decide

/-! ## Times -/

theorem readNum_pad2 (n : Nat) (h : n < 100) (s : Bytes) : readNum 2 0 (pad2 n ++ s) = some (n, s) := by
  simp only [pad2, List.cons_append, List.nil_append, readNum, readDigit, digitVal_digitByte]
  congr 2; omega

theorem readHour_pad2 (n : Nat) (h : n < 100) (s : Bytes) : readHour (pad2 n ++ s) = some (n, s) := by
  simp only [pad2, List.cons_append, List.nil_append, readHour, readDigit, digitVal_digitByte]
  congr 2
  omega

theorem readNum_pad4 (n : Nat) (h : n < 10000) (s : Bytes) : readNum 4 0 (pad4 n ++ s) = some (n, s) := by
  simp only [pad4, List.cons_append, List.nil_append, readNum, readDigit, digitVal_digitByte]
  congr 2; omega

theorem parseDigits_padTo (k n : Nat) (h : n < 10 ^ k) : parseDigits 0 (padTo k n) = some n := by
  induction k generalizing n with
  | zero => simp only [padTo, parseDigits]; congr 1; simp at h; omega
  | succ k ih =>
    simp only [padTo]
    rw [parseDigits_append, ih _ (by rw [Nat.pow_succ] at h; omega)]
    simp only [Option.bind_some, parseDigits, digitVal_digitByte]
    congr 1; omega

theorem padTo_length (k n : Nat) : (padTo k n).length = k := by
  induction k generalizing n with
  | zero => rfl
  | succ k ih => simp [padTo, ih]

theorem trimZeros_append (s : Bytes) : ∃ k, s = trimZeros s ++ List.replicate k 48 := by
  refine ⟨(s.reverse.takeWhile (· = 48)).length, ?_⟩
  have h := List.takeWhile_append_dropWhile (p := fun c : UInt8 => decide (c = 48)) (l := s.reverse)
  have hr : s = (s.reverse.dropWhile (· = 48)).reverse ++ (s.reverse.takeWhile (· = 48)).reverse := by
    rw [← List.reverse_append, h, List.reverse_reverse]
  refine hr.trans ?_
  unfold trimZeros
  refine congrArg _ (List.eq_replicate_iff.2 ⟨by simp, ?_⟩)
  intro b hb
  have := List.mem_reverse.1 hb
  have := List.all_eq_true.1 (List.all_takeWhile (p := fun c : UInt8 => decide (c = 48)) (l := s.reverse)) b this
  simpa using this

theorem parseDigits_zeros (k n : Nat) : parseDigits n (List.replicate k 48) = some (n * 10 ^ k) := by
  induction k generalizing n with
  | zero => simp [parseDigits]
  | succ k ih =>
    simp only [List.replicate_succ, parseDigits]
    rw [show digitVal? 48 = some 0 from by decide]
    simp only
    rw [ih]
    congr 1
    rw [Nat.pow_succ]
    simp only [Nat.add_zero]
    rw [Nat.mul_assoc, Nat.mul_comm 10]

theorem readDigits_parseDigits (acc k v : Nat) (s : Bytes) (h : parseDigits acc s = some v) (c : UInt8) (r : Bytes)
    (hc : digitVal? c = none) : readDigits acc k (s ++ c :: r) = (v, k + s.length, c :: r) := by
  induction s generalizing acc k with
  | nil =>
    simp only [parseDigits, Option.some.injEq] at h
    subst h
    simp [readDigits, hc]
  | cons d s ih =>
    simp only [parseDigits] at h
    simp only [List.cons_append, readDigits]
    cases hd : digitVal? d with
    | none => rw [hd] at h; simp at h
    | some x =>
      rw [hd] at h
      simp only at h ⊢
      rw [ih _ _ h]
      simp only [List.length_cons]
      congr 2; omega

theorem readFrac_formatFrac (n : Nat) (h : n < 10 ^ 9) (c : UInt8) (r : Bytes) (hc : digitVal? c = none)
    (h46 : c ≠ 46) : readFrac (formatFrac n ++ c :: r) = some (n, c :: r) := by
  by_cases h0 : n = 0
  · subst h0
    simp only [formatFrac, if_true, List.nil_append]
    unfold readFrac
    split
    · rename_i heq; simp only [List.cons.injEq] at heq; exact absurd heq.1 h46
    · rfl
  · simp only [formatFrac, h0, if_false, List.cons_append, readFrac]
    obtain ⟨k, hk⟩ := trimZeros_append (padTo 9 n)
    have hp := parseDigits_padTo 9 n h
    have hl := padTo_length 9 n
    generalize trimZeros (padTo 9 n) = s at hk
    rw [hk] at hp hl
    rw [parseDigits_append] at hp
    cases hs : parseDigits 0 s with
    | none => rw [hs] at hp; simp at hp
    | some v =>
      rw [hs] at hp
      simp only [Option.bind_some] at hp
      rw [parseDigits_zeros] at hp
      have hv : v * 10 ^ k = n := Option.some.inj hp
      rw [readDigits_parseDigits 0 0 v s hs c r hc]
      simp only [List.length_append, List.length_replicate] at hl
      have hs0 : s ≠ [] := by
        intro h; subst h
        simp only [parseDigits, Option.some.injEq] at hs
        subst hs; simp at hv; omega
      have : s.length ≠ 0 := fun h => hs0 (List.length_eq_zero_iff.1 h)
      simp only [Nat.zero_add]
      rw [if_neg (by omega), show 9 - s.length = k by omega, hv]

theorem formatZone_cons (off : Int) : ∃ c r, formatZone off = c :: r ∧ digitVal? c = none ∧ c ≠ 46 := by
  unfold formatZone
  split
  · exact ⟨90, [], rfl, by decide, by decide⟩
  · refine ⟨_, _, rfl, ?_, ?_⟩ <;> split <;> decide

theorem readZone_formatZone (off : Int) (h1 : off.natAbs < 6000) : readZone (formatZone off) = some (off, []) := by
  unfold formatZone
  split
  · rename_i h; subst h; decide
  · rename_i h
    have e1 := readNum_pad2 (off.natAbs / 60) (by omega) (58 :: pad2 (off.natAbs % 60))
    have e2 := readNum_pad2 (off.natAbs % 60) (by omega) []
    rw [List.append_nil] at e2
    split
    · rename_i hn
      simp only [readZone, show (45 : UInt8) ≠ 90 by decide, if_false, or_true, if_true, e1, Option.bind_eq_bind,
        Option.bind_some, readByte, e2]
      congr 2
      omega
    · rename_i hn
      simp only [readZone, show (43 : UInt8) ≠ 90 by decide, show (43 : UInt8) ≠ 45 by decide, if_false, true_or, if_true, e1,
        Option.bind_eq_bind, Option.bind_some, readByte, e2]
      congr 2
      omega

theorem parseTime_formatTime (t : GoTime) (hy : t.year < 10000) (hr : t.inRange = true) (hn : t.nsec < 10 ^ 9)
    (ho : t.off.natAbs < 6000) : parseTime (formatTime t) = some t := by
  have hr' := hr
  simp only [GoTime.inRange, Bool.and_eq_true, decide_eq_true_eq] at hr'
  obtain ⟨⟨⟨⟨⟨⟨m1, m2⟩, d1⟩, d2⟩, hh⟩, hm⟩, hs⟩ := hr'
  have hd : t.day < 100 := by
    have : daysIn t.year t.month ≤ 31 := by unfold daysIn; repeat' split <;> try omega
    omega
  obtain ⟨c, r, hz, hc, h46⟩ := formatZone_cons t.off
  have ef := readFrac_formatFrac t.nsec hn c r hc h46
  rw [← hz] at ef
  simp only [parseTime, formatTime, readNum_pad4 _ hy, readNum_pad2 _ (show t.month < 100 by omega), readNum_pad2 _ hd,
    readHour_pad2 _ (show t.hour < 100 by omega), readNum_pad2 _ (show t.min < 100 by omega),
    readNum_pad2 _ (show t.sec < 100 by omega), readByte, if_true, Option.bind_eq_bind, Option.bind_some, ef,
    readZone_formatZone _ ho]
  rw [if_pos ⟨trivial, hr⟩]

end Appdash
