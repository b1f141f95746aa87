import Verif.Proofs.JsonText

/-! # UTF-8 as Lean encodes it, and as the model reads it -/

namespace Appdash



theorem char_valid (ch : Char) : ch.val.toNat < 0xD800 ∨ (0xDFFF < ch.val.toNat ∧ ch.val.toNat < 0x110000) := ch.valid

theorem utf8Len_char (ch : Char) (rest : Bytes) : utf8Len (String.utf8EncodeChar ch ++ rest) = (String.utf8EncodeChar ch).length := by
  have hv := char_valid ch
  revert hv
  unfold String.utf8EncodeChar
  generalize ch.val.toNat = v
  intro hv
  dsimp only
  split
  · have : (UInt8.ofNat v).toNat = v := by simp; omega
    simp only [List.cons_append, List.nil_append, utf8Len, this, List.length_cons, List.length_nil]
    rw [if_pos (by omega)]
  · split
    · have h1 : (UInt8.ofNat (v / 64 % 0x20 + 0xc0)).toNat = v / 64 + 192 := by simp; omega
      have h2 : (UInt8.ofNat (v % 0x40 + 0x80)).toNat = v % 64 + 128 := by simp; omega
      simp only [List.cons_append, List.nil_append, utf8Len, h1, h2, List.length_cons, List.length_nil]
      rw [if_neg (by omega), if_pos (by omega), if_pos (by simp; omega)]
    · split
      · have h1 : (UInt8.ofNat (v / 4096 % 0x10 + 0xe0)).toNat = v / 4096 + 224 := by simp; omega
        have h2 : (UInt8.ofNat (v / 64 % 0x40 + 0x80)).toNat = v / 64 % 64 + 128 := by simp; omega
        have h3 : (UInt8.ofNat (v % 0x40 + 0x80)).toNat = v % 64 + 128 := by simp; omega
        simp only [List.cons_append, List.nil_append, utf8Len, h1, h2, h3, List.length_cons, List.length_nil]
        rw [if_neg (by omega), if_neg (by omega), if_pos (by omega), if_pos (by simp; omega)]
      · have h1 : (UInt8.ofNat (v / 262144 % 0x8 + 0xf0)).toNat = v / 262144 + 240 := by simp; omega
        have h2 : (UInt8.ofNat (v / 4096 % 0x40 + 0x80)).toNat = v / 4096 % 64 + 128 := by simp; omega
        have h3 : (UInt8.ofNat (v / 64 % 0x40 + 0x80)).toNat = v / 64 % 64 + 128 := by simp; omega
        have h4 : (UInt8.ofNat (v % 0x40 + 0x80)).toNat = v % 64 + 128 := by simp; omega
        simp only [List.cons_append, List.nil_append, utf8Len, h1, h2, h3, h4, List.length_cons, List.length_nil]
        rw [if_neg (by omega), if_neg (by omega), if_neg (by omega), if_pos (by omega), if_pos (by simp; omega)]

/-- The character with a code point. -/
theorem char_ofNat {n : Nat} (h : n < 0xD800 ∨ (0xDFFF < n ∧ n < 0x110000)) : (Char.ofNat n).val.toNat = n := by
  have : n.isValidChar := h
  rw [Char.ofNat, dif_pos this]
  rfl

theorem encodeRune_char {n : Nat} (h : n < 0xD800 ∨ (0xDFFF < n ∧ n < 0x110000)) :
    encodeRune n = String.utf8EncodeChar (Char.ofNat n) := by
  unfold String.utf8EncodeChar encodeRune
  rw [char_ofNat h]
  dsimp only
  repeat' split
  all_goals first | omega | skip
  · rfl
  all_goals
    simp only [List.cons.injEq, and_true]
  · exact ⟨by congr 1; omega, by congr 1; omega⟩
  · exact ⟨by congr 1; omega, by congr 1; omega, by congr 1; omega⟩
  · exact ⟨by congr 1; omega, by congr 1; omega, by congr 1; omega, by congr 1; omega⟩

theorem char_of_utf8Len {a : UInt8} {r : Bytes} {k : Nat} (h : utf8Len (a :: r) = k + 1) : IsChar (a :: r.take k) := by
  have key : ∀ n, (n < 0xD800 ∨ (0xDFFF < n ∧ n < 0x110000)) → a :: r.take k = encodeRune n → IsChar (a :: r.take k) :=
    fun n hn he => ⟨_, he.trans (encodeRune_char hn)⟩
  have eqb : ∀ (c : UInt8) (n : Nat), c.toNat = n → c = UInt8.ofNat n := by
    intro c n e; rw [← e]; simp
  simp only [utf8Len] at h
  split at h
  · have : k = 0 := by omega
    subst this
    refine key a.toNat (by omega) ?_
    rw [encodeRune, if_pos (by omega)]
    simp
  · split at h
    · split at h
      · rename_i b r'
        split at h
        · rename_i h1
          have : k = 1 := by omega
          subst this
          simp only [decide_eq_true_eq] at h1
          refine key ((a.toNat - 192) * 64 + (b.toNat - 128)) (by omega) ?_
          rw [encodeRune, if_neg (by omega), if_pos (by omega)]
          simp only [List.take_succ_cons, List.take_zero, List.cons.injEq, and_true]
          exact ⟨eqb _ _ (by omega), eqb _ _ (by omega)⟩
        · cases h
      · cases h
    · split at h
      · split at h
        · rename_i b c r'
          split at h
          · rename_i h1
            have : k = 2 := by omega
            subst this
            simp only [Bool.and_eq_true, Bool.or_eq_true, decide_eq_true_eq] at h1
            refine key ((a.toNat - 224) * 4096 + (b.toNat - 128) * 64 + (c.toNat - 128)) (by omega) ?_
            rw [encodeRune, if_neg (by omega), if_neg (by omega), if_pos (by omega)]
            simp only [List.take_succ_cons, List.take_zero, List.cons.injEq, and_true]
            exact ⟨eqb _ _ (by omega), eqb _ _ (by omega), eqb _ _ (by omega)⟩
          · cases h
        · cases h
      · split at h
        · split at h
          · rename_i b c d r'
            split at h
            · rename_i h1
              have : k = 3 := by omega
              subst this
              simp only [Bool.and_eq_true, Bool.or_eq_true, decide_eq_true_eq] at h1
              refine key ((a.toNat - 240) * 262144 + (b.toNat - 128) * 4096 + (c.toNat - 128) * 64 + (d.toNat - 128)) (by omega) ?_
              rw [encodeRune, if_neg (by omega), if_neg (by omega), if_neg (by omega)]
              simp only [List.take_succ_cons, List.take_zero, List.cons.injEq, and_true]
              exact ⟨eqb _ _ (by omega), eqb _ _ (by omega), eqb _ _ (by omega), eqb _ _ (by omega)⟩
            · cases h
          · cases h
        · cases h

theorem isChar_cons {bs : Bytes} (h : IsChar bs) : ∃ c cs, bs = c :: cs := by
  obtain ⟨ch, rfl⟩ := h
  cases e : String.utf8EncodeChar ch with
  | nil => exact absurd e String.utf8EncodeChar_ne_nil
  | cons c cs => exact ⟨c, cs, rfl⟩

theorem utf8Len_isChar {bs : Bytes} (h : IsChar bs) (rest : Bytes) : utf8Len (bs ++ rest) = bs.length := by
  obtain ⟨ch, rfl⟩ := h
  exact utf8Len_char ch rest

theorem utf8Len_bad {s : Bytes} (h : NoChar s) : utf8Len s = 0 := by
  cases s with
  | nil => rfl
  | cons a r =>
    cases hl : utf8Len (a :: r) with
    | zero => rfl
    | succ k => exact absurd (char_of_utf8Len hl) (h (a :: r.take k) (r.drop k) (by simp))

theorem noChar_of_utf8Len {s : Bytes} (h : utf8Len s = 0) : NoChar s := by
  rintro bs r rfl hc
  rw [utf8Len_isChar hc] at h
  obtain ⟨c, cs, rfl⟩ := isChar_cons hc
  cases h

/-- Whether a character begins does not depend on what follows a string end. -/
theorem noChar_append {s r : Bytes} (h : NoChar (s ++ r)) : NoChar s := by
  rintro bs r' rfl hc
  exact h bs (r' ++ r) (by simp) hc

theorem isChar_low {c : UInt8} {cs : Bytes} (h : IsChar (c :: cs)) (hc : c.toNat < 128) : cs = [] := by
  have := utf8Len_isChar h []
  simp only [List.append_nil, utf8Len, hc, if_true, List.length_cons] at this
  exact List.length_eq_zero_iff.1 (by omega)

theorem isChar_cont {c : UInt8} {cs : Bytes} (h : IsChar (c :: cs)) : ∀ x ∈ cs, 128 ≤ x.toNat := by
  obtain ⟨ch, h⟩ := h
  unfold String.utf8EncodeChar at h
  dsimp only at h
  have e : ∀ v, 128 ≤ (UInt8.ofNat (v % 0x40 + 0x80)).toNat := by intro v; simp; omega
  repeat' split at h
  all_goals
    simp only [List.cons.injEq] at h
    obtain ⟨-, rfl⟩ := h
    simp only [List.mem_cons, List.not_mem_nil, or_false]
    intro x hx
    grind

theorem isChar_ascii {c : UInt8} (h : c.toNat < 128) : IsChar [c] := by
  have := char_of_utf8Len (a := c) (r := []) (k := 0) (by simp [utf8Len, h])
  simpa using this

theorem noChar_high {c : UInt8} {s : Bytes} (h : NoChar (c :: s)) : 128 ≤ c.toNat :=
  Nat.le_of_not_lt fun hc => h [c] s rfl (isChar_ascii hc)

theorem replacement_eq : replacement = [239, 191, 189] := by
  rw [replacement, ← encodeRune_char (by omega)]
  decide

theorem cleaned_aux (m : Nat) : ∀ s : Bytes, s.length ≤ m → Cleaned s (cleanUTF8Aux m s) := by
  induction m with
  | zero =>
    intro s hs
    have : s = [] := List.length_eq_zero_iff.1 (by omega)
    subst this
    exact .nil
  | succ m ih =>
    intro s hs
    cases s with
    | nil => simp only [cleanUTF8Aux]; exact .nil
    | cons a r =>
      simp only [List.length_cons] at hs
      simp only [cleanUTF8Aux]
      cases hl : utf8Len (a :: r) with
      | zero =>
        have := Cleaned.bad (noChar_of_utf8Len hl) (ih r (by omega))
        rw [replacement_eq] at this
        exact this
      | succ k =>
        have := Cleaned.char (char_of_utf8Len hl) (ih (r.drop k) (by rw [List.length_drop]; omega))
        simpa using this

theorem cleaned_unique {s t : Bytes} (h : Cleaned s t) : ∀ t', Cleaned s t' → t = t' := by
  induction h with
  | nil =>
    intro t' h'
    generalize hs : ([] : Bytes) = s at h'
    cases h' with
    | nil => rfl
    | @char bs s t hc h =>
      obtain ⟨c, cs, rfl⟩ := isChar_cons hc
      cases hs
    | bad => cases hs
  | @char bs s t hc h ih =>
    intro t' h'
    generalize hs : bs ++ s = s' at h'
    have hl := utf8Len_isChar hc s
    obtain ⟨c, cs, rfl⟩ := isChar_cons hc
    cases h' with
    | nil => cases hs
    | @char bs' s' t' hc' h' =>
      have hl' := utf8Len_isChar hc' s'
      rw [← hs, hl] at hl'
      obtain ⟨rfl, rfl⟩ := List.append_inj hs hl'
      rw [ih _ h']
    | bad hb => exact absurd hc (hb _ _ hs.symm)
  | @bad b s t hb h ih =>
    intro t' h'
    generalize hs : b :: s = s' at h'
    cases h' with
    | nil => cases hs
    | char hc' h' => exact absurd hc' (hb _ _ hs)
    | bad _ h' =>
      cases hs
      rw [ih _ h']

theorem cleaned_iff (s t : Bytes) : Cleaned s t ↔ t = cleanUTF8 s :=
  ⟨fun h => cleaned_unique h _ (cleaned_aux _ _ (Nat.le_refl _)), fun h => h ▸ cleaned_aux _ _ (Nat.le_refl _)⟩

theorem cleaned_length {s t : Bytes} (h : Cleaned s t) : s.length ≤ t.length := by
  induction h with
  | nil => exact Nat.le_refl _
  | char _ _ ih => simp only [List.length_append]; omega
  | bad _ _ ih => simp only [List.length_append, replacement_eq, List.length_cons, List.length_nil]; omega

theorem cleaned_valid {s t : Bytes} (h : Cleaned s t) : ValidUTF8 t := by
  induction h with
  | nil => exact ⟨[], rfl⟩
  | char hc _ ih =>
    obtain ⟨ch, rfl⟩ := hc
    obtain ⟨l, rfl⟩ := ih
    exact ⟨ch :: l, rfl⟩
  | bad _ _ ih =>
    obtain ⟨l, rfl⟩ := ih
    exact ⟨Char.ofNat 0xFFFD :: l, rfl⟩

theorem valid_cleaned {s : Bytes} (h : ValidUTF8 s) : Cleaned s s := by
  obtain ⟨l, rfl⟩ := h
  induction l with
  | nil => exact .nil
  | cons ch l ih => exact .char ⟨ch, rfl⟩ ih

theorem clean_valid_iff (s : Bytes) : cleanUTF8 s = s ↔ ValidUTF8 s :=
  ⟨fun h => cleaned_valid ((cleaned_iff s s).2 h.symm), fun h => ((cleaned_iff s s).1 (valid_cleaned h)).symm⟩

end Appdash
