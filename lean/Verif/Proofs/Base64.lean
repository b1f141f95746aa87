import Verif.Model.Base64

/-! # Base64 -/

namespace Appdash

theorem b64Val_char (v : Nat) (h : v < 64) : b64Val (b64Char v) = some v := by
  have : ∀ v : Fin 64, b64Val (b64Char v.val) = some v.val := by decide
  exact this ⟨v, h⟩

theorem b64Char_ne (v : Nat) (h : v < 64) : b64Char v ≠ 61 ∧ b64Char v ≠ 10 ∧ b64Char v ≠ 13 := by
  have : ∀ v : Fin 64, b64Char v.val ≠ 61 ∧ b64Char v.val ≠ 10 ∧ b64Char v.val ≠ 13 := by decide
  exact this ⟨v, h⟩

theorem b64_byte (a : UInt8) (n : Nat) (h : n = a.toNat) : UInt8.ofNat n = a := by
  subst h; simp

theorem b64Quads_encode : ∀ s : Bytes, b64DecodeQuads (b64Encode s) = some s
  | [] => rfl
  | [a] => by
    have ha := a.toNat_lt
    simp only [b64Encode, b64DecodeQuads]
    rw [b64Val_char _ (by omega), b64Val_char _ (by omega)]
    simp only [if_true, and_self]
    rw [b64_byte a _ (by omega)]
  | [a, b] => by
    have ha := a.toNat_lt
    have hb := b.toNat_lt
    simp only [b64Encode, b64DecodeQuads]
    rw [b64Val_char _ (by omega), b64Val_char _ (by omega), b64Val_char _ (by omega)]
    simp only [(b64Char_ne _ (show (a.toNat * 65536 + b.toNat * 256) / 64 % 64 < 64 by omega)).1, if_false, if_true]
    rw [b64_byte a _ (by omega), b64_byte b _ (by omega)]
  | a :: b :: c :: rest => by
    have ha := a.toNat_lt
    have hb := b.toNat_lt
    have hc := c.toNat_lt
    simp only [b64Encode, b64DecodeQuads]
    rw [b64Val_char _ (by omega), b64Val_char _ (by omega), b64Val_char _ (by omega), b64Val_char _ (by omega)]
    simp only [(b64Char_ne _ (show (a.toNat * 65536 + b.toNat * 256 + c.toNat) / 64 % 64 < 64 by omega)).1,
      (b64Char_ne _ (show (a.toNat * 65536 + b.toNat * 256 + c.toNat) % 64 < 64 by omega)).1, if_false,
      b64Quads_encode rest]
    rw [b64_byte a _ (by omega), b64_byte b _ (by omega), b64_byte c _ (by omega)]

theorem b64Encode_noNewline : ∀ s : Bytes, ∀ c ∈ b64Encode s, c ≠ 10 ∧ c ≠ 13
  | [] => by simp [b64Encode]
  | [a] => by
    have ha := a.toNat_lt
    simp only [b64Encode, List.mem_cons, List.not_mem_nil, or_false]
    rintro c (rfl | rfl | rfl | rfl)
    · exact (b64Char_ne _ (by omega)).2
    · exact (b64Char_ne _ (by omega)).2
    · decide
    · decide
  | [a, b] => by
    have ha := a.toNat_lt
    have hb := b.toNat_lt
    simp only [b64Encode, List.mem_cons, List.not_mem_nil, or_false]
    rintro c (rfl | rfl | rfl | rfl)
    · exact (b64Char_ne _ (by omega)).2
    · exact (b64Char_ne _ (by omega)).2
    · exact (b64Char_ne _ (by omega)).2
    · decide
  | a :: b :: c :: rest => by
    have ha := a.toNat_lt
    have hb := b.toNat_lt
    have hc := c.toNat_lt
    simp only [b64Encode, List.mem_cons]
    rintro x (rfl | rfl | rfl | rfl | h)
    · exact (b64Char_ne _ (by omega)).2
    · exact (b64Char_ne _ (by omega)).2
    · exact (b64Char_ne _ (by omega)).2
    · exact (b64Char_ne _ (by omega)).2
    · exact b64Encode_noNewline rest x h

/-- Decoding undoes encoding. -/
theorem b64_roundtrip (s : Bytes) : b64Decode (b64Encode s) = some s := by
  unfold b64Decode
  rw [List.filter_eq_self.2, b64Quads_encode]
  intro c hc
  simpa using b64Encode_noNewline s c hc

/-- Encoding is injective. -/
theorem b64Encode_inj {a b : Bytes} (h : b64Encode a = b64Encode b) : a = b := by
  have := congrArg b64Decode h
  rw [b64_roundtrip, b64_roundtrip] at this
  injection this

end Appdash
