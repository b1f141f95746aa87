import Verif.Spec.Base64
import Verif.Proofs.Base64
import Verif.Proofs.Http

/-! # Base64 against its specification -/

namespace Appdash

open Spec

theorem digit64_iff (c : UInt8) (d : Nat) : b64Val c = some d ↔ IsDigit64 c d := by
  unfold IsDigit64
  have h1 : ∀ c : UInt8, ∀ d, b64Val c = some d → base64Alphabet[d]? = some c := by
    have : ∀ c : UInt8, (b64Val c).all fun d => base64Alphabet[d]? == some c := byte_cases _ (by decide +kernel)
    intro c d h
    have := this c
    rw [h] at this
    simpa using this
  have h2 : ∀ d < 64, (base64Alphabet[d]?.bind b64Val) = some d := by decide +kernel
  constructor
  · exact h1 c d
  · intro h
    have hd : d < 64 := by
      have := (List.getElem?_eq_some_iff.1 h).1
      exact this
    have := h2 d hd
    rw [h] at this
    exact this

theorem digit64_lt {c : UInt8} {d : Nat} (h : IsDigit64 c d) : d < 64 := (List.getElem?_eq_some_iff.1 h).1

theorem pad_no_digit {d : Nat} : ¬ IsDigit64 61 d := by
  rw [← digit64_iff]
  simp [show b64Val 61 = none by decide]

theorem ofNat_toNat_byte (x : UInt8) (n : Nat) (h : n = x.toNat) : UInt8.ofNat n = x := by
  subst h; simp

theorem b64Quads_iff : ∀ (s b : Bytes), b64DecodeQuads s = some b ↔ Base64 s b
  | [], b => by
    simp only [b64DecodeQuads, Option.some.injEq]
    constructor
    · rintro rfl; exact .nil
    · intro h; cases h; rfl
  | [_], b => ⟨fun h => by simp [b64DecodeQuads] at h, fun h => by cases h⟩
  | [_, _], b => ⟨fun h => by simp [b64DecodeQuads] at h, fun h => by cases h⟩
  | [_, _, _], b => ⟨fun h => by simp [b64DecodeQuads] at h, fun h => by cases h⟩
  | c0 :: c1 :: c2 :: c3 :: rest, b => by
    have ih := b64Quads_iff rest
    constructor
    · intro h
      simp only [b64DecodeQuads] at h
      split at h
      · rename_i d0 d1 e0 e1
        rw [digit64_iff] at e0 e1
        have l0 := digit64_lt e0
        have l1 := digit64_lt e1
        split at h
        · rename_i hc2
          split at h
          · rename_i hc
            obtain ⟨rfl, rfl⟩ := hc
            subst hc2
            simp only [Option.some.injEq] at h
            subst h
            refine .one (r := d1 % 16) e0 e1 (by omega) ?_
            rw [UInt8.toNat_ofNat']
            omega
          · cases h
        · split at h
          · cases h
          · rename_i d2 e2
            rw [digit64_iff] at e2
            have l2 := digit64_lt e2
            split at h
            · rename_i hc3
              split at h
              · rename_i hr
                subst hr hc3
                simp only [Option.some.injEq] at h
                subst h
                refine .two (r := d2 % 4) e0 e1 e2 (by omega) ?_
                rw [UInt8.toNat_ofNat', UInt8.toNat_ofNat']
                omega
              · cases h
            · split at h
              · cases h
              · rename_i d3 e3
                rw [digit64_iff] at e3
                have l3 := digit64_lt e3
                split at h
                · cases h
                · rename_i r hr
                  simp only [Option.some.injEq] at h
                  subst h
                  refine .three e0 e1 e2 e3 ?_ ((ih r).1 hr)
                  rw [UInt8.toNat_ofNat', UInt8.toNat_ofNat', UInt8.toNat_ofNat']
                  omega
      · cases h
    · intro h
      cases h with
      | one h0 h1 hr h =>
        rename_i x d0 d1 r
        have := x.toNat_lt
        rw [← digit64_iff] at h0 h1
        simp only [b64DecodeQuads, h0, h1, and_self, if_true]
        rw [ofNat_toNat_byte x _ (by omega)]
      | two h0 h1 h2 hr h =>
        rename_i x y d0 d1 d2 r
        have := x.toNat_lt
        have := y.toNat_lt
        have hp : c2 ≠ 61 := by rintro rfl; exact pad_no_digit h2
        rw [← digit64_iff] at h0 h1 h2
        simp only [b64DecodeQuads, h0, h1, h2, if_neg hp, if_true]
        rw [ofNat_toNat_byte x _ (by omega), ofNat_toNat_byte y _ (by omega)]
      | three h0 h1 h2 h3 h ht =>
        rename_i x y z d0 d1 d2 d3 bytes
        have := x.toNat_lt
        have := y.toNat_lt
        have := z.toNat_lt
        have hp : c2 ≠ 61 := by rintro rfl; exact pad_no_digit h2
        have hp3 : c3 ≠ 61 := by rintro rfl; exact pad_no_digit h3
        rw [← digit64_iff] at h0 h1 h2 h3
        simp only [b64DecodeQuads, h0, h1, h2, h3, if_neg hp, if_neg hp3, (ih _).2 ht]
        rw [ofNat_toNat_byte x _ (by omega), ofNat_toNat_byte y _ (by omega), ofNat_toNat_byte z _ (by omega)]

theorem digit64_char {c : UInt8} {d : Nat} (h : IsDigit64 c d) : b64Char d = c := by
  have hd := digit64_lt h
  have : ∀ d < 64, base64Alphabet[d]? = some (b64Char d) := by decide +kernel
  unfold IsDigit64 at h
  rw [this d hd] at h
  exact Option.some.inj h

theorem char_digit64 {d : Nat} (hd : d < 64) : IsDigit64 (b64Char d) d := by
  have : ∀ d < 64, base64Alphabet[d]? = some (b64Char d) := by decide +kernel
  exact this d hd

theorem b64Encode_written : ∀ b : Bytes, Base64Written (b64Encode b) b
  | [] => .nil
  | [x] => by
    have := x.toNat_lt
    exact .one (char_digit64 (by omega)) (char_digit64 (by omega)) (by omega)
  | [x, y] => by
    have := x.toNat_lt
    have := y.toNat_lt
    exact .two (char_digit64 (by omega)) (char_digit64 (by omega)) (char_digit64 (by omega)) (by omega)
  | x :: y :: z :: rest => by
    have := x.toNat_lt
    have := y.toNat_lt
    have := z.toNat_lt
    exact .three (char_digit64 (by omega)) (char_digit64 (by omega)) (char_digit64 (by omega)) (char_digit64 (by omega)) (by omega)
      (b64Encode_written rest)

theorem written_eq {t b : Bytes} (h : Base64Written t b) : b64Encode b = t := by
  induction h with
  | nil => rfl
  | one h0 h1 h =>
    have := digit64_lt h0
    have := digit64_lt h1
    rw [← digit64_char h0, ← digit64_char h1]
    simp only [b64Encode]
    refine congrArg₂ (fun a b => [b64Char a, b64Char b, 61, 61]) ?_ ?_ <;> omega
  | two h0 h1 h2 h =>
    have := digit64_lt h0
    have := digit64_lt h1
    have := digit64_lt h2
    rw [← digit64_char h0, ← digit64_char h1, ← digit64_char h2]
    simp only [b64Encode, List.cons.injEq, and_true]
    refine ⟨congrArg _ ?_, congrArg _ ?_, congrArg _ ?_⟩ <;> omega
  | three h0 h1 h2 h3 h ht ih =>
    have := digit64_lt h0
    have := digit64_lt h1
    have := digit64_lt h2
    have := digit64_lt h3
    rw [← digit64_char h0, ← digit64_char h1, ← digit64_char h2, ← digit64_char h3]
    simp only [b64Encode, ih, List.cons.injEq, and_true]
    refine ⟨congrArg _ ?_, congrArg _ ?_, congrArg _ ?_, congrArg _ ?_⟩ <;> omega

theorem written_iff (t b : Bytes) : Base64Written t b ↔ t = b64Encode b :=
  ⟨fun h => (written_eq h).symm, fun h => h ▸ b64Encode_written b⟩

theorem base64_iff (s b : Bytes) : b64Decode s = some b ↔ Base64 (unbroken s) b := by
  rw [b64Decode, b64Quads_iff]
  have : s.filter (fun c => decide (c ≠ 10 ∧ c ≠ 13)) = unbroken s := by
    unfold unbroken
    congr 1
    funext c
    by_cases h1 : c = 10 <;> by_cases h2 : c = 13 <;> simp [h1, h2]
  rw [this]

end Appdash
