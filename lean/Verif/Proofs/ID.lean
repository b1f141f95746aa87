import Verif.Model.ID
import Verif.Spec.ID

/-! # Helper lemmas for `id.go` -/

namespace Appdash

open Spec

theorem UInt8.forall_of_fin {P : UInt8 → Prop} (h : ∀ n : Fin 256, P (UInt8.ofNat n.val)) (c : UInt8) :
    P c := by
  have := h ⟨c.toNat, c.toNat_lt⟩
  simpa using this

set_option maxRecDepth 20000 in
theorem digitOf_lt16 (c : UInt8) :
    (match digitOf c with
      | some d => if d ≥ 16 then none else some d.toNat
      | none => none) = hexDigitValue c := by
  revert c
  apply UInt8.forall_of_fin
  decide

set_option maxRecDepth 20000 in
theorem hexDigitValue_lt {c : UInt8} {d : Nat} (h : hexDigitValue c = some d) : d < 16 := by
  revert d
  revert c
  apply UInt8.forall_of_fin (P := fun c => ∀ {d : Nat}, hexDigitValue c = some d → d < 16)
  intro n d h
  have : ∀ n : Fin 256, ∀ d ∈ hexDigitValue (UInt8.ofNat n.val), d < 16 := by decide
  exact this n d h

theorem hexDigitValue_char (d : Nat) (h : d < 16) : hexDigitValue (hexDigitChar d) = some d := by
  have : ∀ d : Fin 16, hexDigitValue (hexDigitChar d.val) = some d.val := by decide
  exact this ⟨d, h⟩

theorem hexDigitChar_lower (d : Nat) (h : d < 16) : IsLowerHex (hexDigitChar d) := by
  have : ∀ d : Fin 16, (48 ≤ (hexDigitChar d.val).toNat ∧ (hexDigitChar d.val).toNat ≤ 57) ∨
      (97 ≤ (hexDigitChar d.val).toNat ∧ (hexDigitChar d.val).toNat ≤ 102) := by decide
  exact this ⟨d, h⟩

theorem hexValue_cons_some {c : UInt8} {s : Bytes} {v : Nat} :
    hexValue (c :: s) = some v ↔
      ∃ d r, hexDigitValue c = some d ∧ hexValue s = some r ∧ v = d * 16 ^ s.length + r := by
  simp only [hexValue]
  constructor
  · intro h
    split at h
    · rename_i d r hd hr
      simp only [Option.some.injEq] at h
      exact ⟨d, r, hd, hr, h.symm⟩
    · simp at h
  · rintro ⟨d, r, h1, h2, h3⟩
    simp [h1, h2, h3]

theorem hexValue_lt {s : Bytes} {v : Nat} (h : hexValue s = some v) : v < 16 ^ s.length := by
  induction s generalizing v with
  | nil => simp [hexValue] at h; subst h; simp
  | cons c s ih =>
    obtain ⟨d, r, hd, hr, h⟩ := hexValue_cons_some.1 h
    have h1 := hexDigitValue_lt hd
    have h2 := ih hr
    rw [List.length_cons, Nat.pow_succ, h]
    have : d * 16 ^ s.length ≤ 15 * 16 ^ s.length := Nat.mul_le_mul_right _ (by omega)
    omega

/-- The parser loop computes the positional value and fails exactly on bad digits or overflow. -/
theorem parseHexLoop_ok (s : Bytes) (n v : UInt64) :
    parseHexLoop n s = .ok v ↔
      ∃ r, hexValue s = some r ∧ n.toNat * 16 ^ s.length + r < 2 ^ 64 ∧
        v.toNat = n.toNat * 16 ^ s.length + r := by
  induction s generalizing n with
  | nil =>
    simp only [parseHexLoop, hexValue, List.length_nil, Nat.pow_zero, Nat.mul_one]
    constructor
    · intro h
      simp only [Except.ok.injEq] at h
      subst h
      exact ⟨0, rfl, by simpa using n.toNat_lt, by simp⟩
    · rintro ⟨r, h1, -, h3⟩
      simp only [Option.some.injEq] at h1
      subst h1
      simp only [Except.ok.injEq]
      exact UInt64.toNat_inj.1 (by simpa using h3.symm)
  | cons c s ih =>
    have hspec := digitOf_lt16 c
    simp only [parseHexLoop]
    cases hd : digitOf c with
    | none =>
      rw [hd] at hspec
      simp only [reduceCtorEq, false_iff, not_exists]
      rintro r ⟨h1, -⟩
      obtain ⟨d, r', h1, -⟩ := hexValue_cons_some.1 h1
      rw [← hspec] at h1
      simp at h1
    | some d =>
      rw [hd] at hspec
      by_cases h16 : d ≥ 16
      · simp only [h16, if_true] at hspec
        simp only [h16, if_true, reduceCtorEq, false_iff, not_exists]
        rintro r ⟨h1, -⟩
        obtain ⟨d, r', h1, -⟩ := hexValue_cons_some.1 h1
        rw [← hspec] at h1
        simp at h1
      · simp only [h16, if_false] at hspec
        simp only [h16, if_false]
        have hdlt : d.toNat < 16 := hexDigitValue_lt hspec.symm
        by_cases hc : n ≥ 0x1000000000000000
        · simp only [hc, if_true, reduceCtorEq, false_iff, not_exists]
          rintro r ⟨h1, h2, -⟩
          have hn : (0x1000000000000000 : Nat) ≤ n.toNat := by
            have := UInt64.le_iff_toNat_le.1 hc
            simpa using this
          rw [List.length_cons, Nat.pow_succ] at h2
          have hp : 1 ≤ 16 ^ s.length := Nat.one_le_pow _ _ (by omega)
          have : 0x1000000000000000 * (1 * 16) ≤ n.toNat * (16 ^ s.length * 16) :=
            Nat.mul_le_mul hn (Nat.mul_le_mul_right _ hp)
          omega
        · simp only [hc, if_false]
          have hn : n.toNat < 0x1000000000000000 := by
            have := mt UInt64.le_iff_toNat_le.2 hc
            simpa using this
          have e1 : (n * 16).toNat = n.toNat * 16 := by
            rw [UInt64.toNat_mul]
            have : (16 : UInt64).toNat = 16 := rfl
            rw [this, Nat.mod_eq_of_lt (by omega)]
          have e2 : (n * 16 + d).toNat = n.toNat * 16 + d.toNat := by
            rw [UInt64.toNat_add, e1, Nat.mod_eq_of_lt (by omega)]
          have hnov : ¬ (n * 16 + d < n * 16) := by
            rw [UInt64.lt_iff_toNat_lt, e1, e2]; omega
          simp only [hnov, if_false]
          rw [ih, e2]
          have key : (n.toNat * 16 + d.toNat) * 16 ^ s.length =
              n.toNat * (16 ^ s.length * 16) + d.toNat * 16 ^ s.length := by
            rw [Nat.add_mul, Nat.mul_assoc, Nat.mul_comm 16]
          rw [key, List.length_cons, Nat.pow_succ]
          constructor
          · rintro ⟨r, h1, h2, h3⟩
            rw [Nat.add_assoc] at h2 h3
            exact ⟨d.toNat * 16 ^ s.length + r,
              hexValue_cons_some.2 ⟨d.toNat, r, hspec.symm, h1, rfl⟩, h2, h3⟩
          · rintro ⟨r, h1, h2, h3⟩
            obtain ⟨d', r', h4, h5, h6⟩ := hexValue_cons_some.1 h1
            rw [← hspec] at h4
            simp only [Option.some.injEq] at h4
            subst h4
            rw [h6, ← Nat.add_assoc] at h2 h3
            exact ⟨r', h5, h2, h3⟩

theorem parseID_ok (s : Bytes) (v : ID) :
    parseID s = .ok v ↔ IDNumeral s v.toNat := by
  suffices h : parseID s = .ok v ↔ s ≠ [] ∧ ∃ r, hexValue s = some r ∧ r < 2 ^ 64 ∧ v.toNat = r by
    rw [h]
    constructor
    · rintro ⟨h1, r, h2, h3, h4⟩
      rw [← h4] at h2 h3
      exact ⟨h1, h2, h3⟩
    · rintro ⟨h1, h2, h3⟩
      exact ⟨h1, _, h2, h3, rfl⟩
  unfold parseID
  by_cases h : s = []
  · simp [h]
  · simp only [h, if_false, ne_eq, not_false_eq_true, true_and]
    rw [parseHexLoop_ok]
    simp

theorem hexLoop_spec (f u : Nat) (acc : Bytes) (hu : u < 16 ^ (f + 1)) (r : Nat) (hr : hexValue acc = some r) :
    hexValue (hexLoop (f + 1) u acc) = some (u * 16 ^ acc.length + r) ∧
      (hexLoop (f + 1) u acc).length ≤ f + 1 + acc.length ∧ hexLoop (f + 1) u acc ≠ [] := by
  induction f generalizing u acc r with
  | zero =>
    have h : ¬ u ≥ 16 := by simp at hu; omega
    simp only [hexLoop, h, if_false]
    refine ⟨?_, by simp; omega, by simp⟩
    exact hexValue_cons_some.2 ⟨u, r, hexDigitValue_char u (by omega), hr, rfl⟩
  | succ f ih =>
    rw [hexLoop]
    split
    · have hq : u / 16 < 16 ^ (f + 1) := by
        rw [Nat.pow_succ] at hu
        exact Nat.div_lt_of_lt_mul (by omega)
      have hacc : hexValue (hexDigitChar (u % 16) :: acc) = some (u % 16 * 16 ^ acc.length + r) :=
        hexValue_cons_some.2 ⟨_, _, hexDigitValue_char _ (by omega), hr, rfl⟩
      obtain ⟨h1, h2, h3⟩ := ih (u / 16) (hexDigitChar (u % 16) :: acc) hq _ hacc
      refine ⟨?_, ?_, h3⟩
      · rw [h1]
        congr 1
        rw [List.length_cons, Nat.pow_succ]
        have : u / 16 * (16 ^ acc.length * 16) = u / 16 * 16 * 16 ^ acc.length := by
          rw [Nat.mul_comm (16 ^ acc.length) 16, Nat.mul_assoc]
        rw [this, ← Nat.add_assoc, ← Nat.add_mul]
        have : u / 16 * 16 + u % 16 = u := by omega
        rw [this]
      · simp at h2 ⊢; omega
    · rename_i h
      refine ⟨hexValue_cons_some.2 ⟨u, r, hexDigitValue_char u (by omega), hr, rfl⟩, by simp; omega, by simp⟩

theorem hexLoop_lower (f u : Nat) (acc : Bytes) (hacc : ∀ c ∈ acc, IsLowerHex c) (hu : u < 16 ^ f) :
    ∀ c ∈ hexLoop f u acc, IsLowerHex c := by
  induction f generalizing u acc with
  | zero => simpa [hexLoop] using hacc
  | succ f ih =>
    rw [hexLoop]
    split
    · apply ih
      · intro c hc
        rcases List.mem_cons.1 hc with rfl | hc
        · exact hexDigitChar_lower _ (by omega)
        · exact hacc c hc
      · rw [Nat.pow_succ] at hu
        exact Nat.div_lt_of_lt_mul (by omega)
    · intro c hc
      rcases List.mem_cons.1 hc with rfl | hc
      · exact hexDigitChar_lower _ (by omega)
      · exact hacc c hc

theorem hexValue_pad (k : Nat) (s : Bytes) : hexValue (List.replicate k 48 ++ s) = hexValue s := by
  induction k with
  | zero => rfl
  | succ k ih =>
    have h0 : hexDigitValue 48 = some 0 := by decide
    rw [List.replicate_succ, List.cons_append]
    simp only [hexValue, ih, h0]
    cases hexValue s <;> simp

theorem toText_value (id : ID) : hexValue id.toText = some id.toNat := by
  unfold ID.toText
  have h := hexLoop_spec 15 id.toNat [] (by have := id.toNat_lt; omega) 0 rfl
  simp only [hexValue_pad]
  simpa using h.1

theorem toText_length (id : ID) : id.toText.length = 16 := by
  unfold ID.toText
  have h := hexLoop_spec 15 id.toNat [] (by have := id.toNat_lt; omega) 0 rfl
  have h2 : (hexLoop 16 id.toNat []).length ≤ 16 := by simpa using h.2.1
  simp only [List.length_append, List.length_replicate]
  omega

theorem toText_lower (id : ID) : ∀ c ∈ id.toText, IsLowerHex c := by
  unfold ID.toText
  intro c hc
  rcases List.mem_append.1 hc with hc | hc
  · rw [List.mem_replicate] at hc
    rw [hc.2]; left; decide
  · exact hexLoop_lower 16 _ _ (by simp) (by have := id.toNat_lt; omega) c hc

theorem parseID_toText (id : ID) : parseID id.toText = .ok id := by
  rw [parseID_ok]
  refine ⟨?_, toText_value id, id.toNat_lt⟩
  intro h
  have := toText_length id
  rw [h] at this
  simp at this

theorem toText_injective {a b : ID} (h : a.toText = b.toText) : a = b := by
  have ha := parseID_toText a
  rw [h, parseID_toText b] at ha
  simpa using ha.symm

end Appdash
