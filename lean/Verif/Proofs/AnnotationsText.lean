import Verif.Model.AnnotationsText
import Verif.Spec.AnnotationsText
import Verif.Proofs.JsonGrammar
import Verif.Proofs.Utf8

/-! # `Annotations.String` -/

namespace Appdash
open Spec

theorem runeOf_char (ch : Char) : runeOf (String.utf8EncodeChar ch) = ch.toNat := by
  have hv := char_valid ch
  have e : ch.toNat = ch.val.toNat := rfl
  rw [e]
  clear e
  revert hv
  unfold String.utf8EncodeChar
  generalize ch.val.toNat = v
  intro hv
  dsimp only
  split
  · show (UInt8.ofNat v).toNat = v
    rw [UInt8.toNat_ofNat']
    omega
  · split
    · have h1 : (UInt8.ofNat (v / 64 % 0x20 + 0xc0)).toNat = v / 64 + 192 := by simp; omega
      have h2 : (UInt8.ofNat (v % 0x40 + 0x80)).toNat = v % 64 + 128 := by simp; omega
      have : ∀ a b : UInt8, runeOf [a, b] = (a.toNat - 192) * 64 + (b.toNat - 128) := fun _ _ => rfl
      rw [this, h1, h2]
      omega
    · split
      · have h1 : (UInt8.ofNat (v / 4096 % 0x10 + 0xe0)).toNat = v / 4096 + 224 := by simp; omega
        have h2 : (UInt8.ofNat (v / 64 % 0x40 + 0x80)).toNat = v / 64 % 64 + 128 := by simp; omega
        have h3 : (UInt8.ofNat (v % 0x40 + 0x80)).toNat = v % 64 + 128 := by simp; omega
        have : ∀ a b c : UInt8, runeOf [a, b, c] = (a.toNat - 224) * 4096 + (b.toNat - 128) * 64 + (c.toNat - 128) := fun _ _ _ => rfl
        rw [this, h1, h2, h3]
        omega
      · have h1 : (UInt8.ofNat (v / 262144 % 0x8 + 0xf0)).toNat = v / 262144 + 240 := by simp; omega
        have h2 : (UInt8.ofNat (v / 4096 % 0x40 + 0x80)).toNat = v / 4096 % 64 + 128 := by simp; omega
        have h3 : (UInt8.ofNat (v / 64 % 0x40 + 0x80)).toNat = v / 64 % 64 + 128 := by simp; omega
        have h4 : (UInt8.ofNat (v % 0x40 + 0x80)).toNat = v % 64 + 128 := by simp; omega
        have : ∀ a b c d : UInt8, runeOf [a, b, c, d] =
            (a.toNat - 240) * 262144 + (b.toNat - 128) * 4096 + (c.toNat - 128) * 64 + (d.toNat - 128) := fun _ _ _ _ => rfl
        rw [this, h1, h2, h3, h4]
        omega

theorem length_hexFixed : ∀ n u, (hexFixed n u).length = n
  | 0, _ => rfl
  | n + 1, u => by simp [hexFixed, length_hexFixed n]

theorem hexFixed_number : ∀ n u, HexNumber (hexFixed n u) (u % 16 ^ n)
  | 0, u => ⟨[], .nil, by simp [Nat.mod_one]⟩
  | n + 1, u => by
    obtain ⟨xs, h1, h2⟩ := hexFixed_number n (u / 16)
    refine ⟨xs ++ [u % 16], ?_, ?_⟩
    · exact List.rel_append h1 (.cons (hexDigit_char _ (by omega)) .nil)
    · rw [List.foldl_append, ← h2, List.foldl_cons, List.foldl_nil, pow_succ', Nat.mod_mul]
      omega

theorem hexNumber_unique {ds : Bytes} {u u' : Nat} (h : HexNumber ds u) (h' : HexNumber ds u') : u = u' := by
  obtain ⟨xs, h1, rfl⟩ := h
  obtain ⟨xs', h1', rfl⟩ := h'
  have : xs = xs' := by
    induction h1 generalizing xs' with
    | nil => cases h1'; rfl
    | cons hd _ ih =>
      cases h1' with
      | cons hd' ht' =>
        rw [← hexVal_iff] at hd hd'
        rw [hd] at hd'
        rw [ih _ ht', Option.some.inj hd']
  rw [this]

theorem hexNumber_bytes {ds : Bytes} {u : Nat} (h : HexNumber ds u) : ∀ c ∈ ds, c ≠ 34 ∧ c ≠ 10 := by
  obtain ⟨xs, h1, -⟩ := h
  clear u
  induction h1 with
  | nil => simp
  | cons hd _ ih =>
    intro c hc
    rcases List.mem_cons.1 hc with rfl | hc
    · unfold HexDigit at hd
      constructor <;> (rintro rfl; revert hd; simp; omega)
    · exact ih c hc

/-- The characters of a literal: no line feed, and a quote only after a backslash. -/
theorem literal_chars {t v : Bytes} (h : GoLiteral t v) :
    10 ∉ t ∧ ∀ pre rest, t = pre ++ 34 :: rest → ∃ pre', pre = pre' ++ [92] := by
  have step : ∀ (block t1 : Bytes), (10 ∉ t1 ∧ ∀ pre rest, t1 = pre ++ 34 :: rest → ∃ pre', pre = pre' ++ [92]) →
      10 ∉ block → (∀ pre rest, block = pre ++ 34 :: rest → ∃ pre', pre = pre' ++ [92]) →
      10 ∉ block ++ t1 ∧ ∀ pre rest, block ++ t1 = pre ++ 34 :: rest → ∃ pre', pre = pre' ++ [92] := by
    intro block t1 h1 h2 h3
    refine ⟨by simp [h1.1, h2], fun pre rest e => ?_⟩
    rcases List.append_eq_append_iff.1 e with ⟨as, rfl, h⟩ | ⟨as, hb, h⟩
    · obtain ⟨p, hp⟩ := h1.2 as rest h
      exact ⟨block ++ p, by rw [hp]; simp⟩
    · cases as with
      | nil =>
        obtain ⟨p, hp⟩ := h1.2 [] rest (by simpa using h.symm)
        simp at hp
      | cons x as =>
        simp only [List.cons_append, List.cons.injEq] at h
        exact h3 pre as (by rw [hb, h.1])
  have none : ∀ block : Bytes, (∀ c ∈ block, c ≠ 34 ∧ c ≠ 10) →
      10 ∉ block ∧ ∀ pre rest, block = pre ++ 34 :: rest → ∃ pre', pre = pre' ++ [92] := by
    intro block hb
    refine ⟨fun hm => (hb 10 hm).2 rfl, fun pre rest e => ?_⟩
    exact absurd rfl (hb 34 (by rw [e]; simp)).1
  induction h with
  | nil => exact ⟨by simp, fun pre rest e => by simp at e⟩
  | @char c cs t v hc h1 h2 h3 h ih =>
    have := none (c :: cs) (by
      intro x hx
      rcases List.mem_cons.1 hx with rfl | hx
      · exact ⟨h1, h3⟩
      · have := isChar_cont hc x hx
        constructor <;> (rintro rfl; revert this; decide))
    exact step _ _ ih this.1 this.2
  | @esc e b t v he h ih =>
    refine step _ _ ih ?_ ?_
    · simp only [List.mem_cons, Prod.mk.injEq, List.not_mem_nil, or_false] at he
      rcases he with h | h | h | h | h | h | h | h | h <;> (obtain ⟨rfl, -⟩ := h; decide)
    · intro pre rest e'
      match pre, e' with
      | [], e' => simp at e'
      | [x], e' => simp at e'; exact ⟨[], by rw [← e'.1]; rfl⟩
      | x :: y :: pre, e' => simp at e'
  | @byte ds t v b hl hd h ih =>
    have := none (92 :: 120 :: ds) (by
      intro x hx
      simp only [List.mem_cons] at hx
      rcases hx with rfl | rfl | hx
      · decide
      · decide
      · exact hexNumber_bytes hd x hx)
    exact step _ _ ih this.1 this.2
  | @short ds t v b hl hd h ih =>
    have := none (92 :: 117 :: ds) (by
      intro x hx
      simp only [List.mem_cons] at hx
      rcases hx with rfl | rfl | hx
      · decide
      · decide
      · exact hexNumber_bytes hd x hx)
    exact step _ _ ih this.1 this.2
  | @long ds t v b hl hd h ih =>
    have := none (92 :: 85 :: ds) (by
      intro x hx
      simp only [List.mem_cons] at hx
      rcases hx with rfl | rfl | hx
      · decide
      · decide
      · exact hexNumber_bytes hd x hx)
    exact step _ _ ih this.1 this.2

theorem char_toNat_inj {a b : Char} (h : a.toNat = b.toNat) : a = b := Char.ext (UInt32.toNat_inj.1 h)

/-- A literal denotes one string. -/
theorem literal_unique {t v : Bytes} (h : GoLiteral t v) : ∀ v', GoLiteral t v' → v = v' := by
  have hne : ¬ IsChar [] := fun h => by obtain ⟨c, cs, h⟩ := isChar_cons h; cases h
  induction h with
  | nil => 
    intro v' h'
    generalize ht : ([] : Bytes) = t at h'
    cases h' <;> simp at ht
    rfl
  | @char c cs t v hc h1 h2 h3 h ih =>
    intro v' h'
    generalize ht : c :: cs ++ t = t0 at h'
    cases h' with
    | nil => simp at ht
    | @char c' cs' t' v' hc' _ _ _ h' =>
      have e1 := utf8Len_isChar hc t
      have e2 := utf8Len_isChar hc' t'
      rw [ht, e2] at e1
      obtain ⟨e3, e4⟩ := List.append_inj ht e1.symm
      rw [e3]
      subst e4
      rw [ih _ h']
    | esc => simp only [List.cons_append, List.cons.injEq] at ht; exact absurd ht.1 h2
    | byte => simp only [List.cons_append, List.cons.injEq] at ht; exact absurd ht.1 h2
    | short => simp only [List.cons_append, List.cons.injEq] at ht; exact absurd ht.1 h2
    | long => simp only [List.cons_append, List.cons.injEq] at ht; exact absurd ht.1 h2
  | @esc e b t v he h ih =>
    intro v' h'
    generalize ht : [92, e] ++ t = t0 at h'
    cases h' with
    | nil => simp at ht
    | @char c' cs' t' v' hc' _ h2 _ h' => simp only [List.cons_append, List.cons.injEq] at ht; exact absurd ht.1.symm h2
    | @esc e' b' t' v' he' h' =>
      simp only [List.cons_append, List.nil_append, List.cons.injEq, true_and] at ht
      obtain ⟨rfl, rfl⟩ := ht
      have : b = b' := by
        simp only [List.mem_cons, Prod.mk.injEq, List.not_mem_nil, or_false] at he he'
        clear ih h h'
        revert he he'
        revert e
        intro e he he'
        rcases he with h | h | h | h | h | h | h | h | h <;>
          (obtain ⟨rfl, rfl⟩ := h; simp at he'; exact he'.symm)
      rw [this, ih _ h']
    | byte =>
      simp only [List.cons_append, List.nil_append, List.cons.injEq, true_and] at ht
      obtain ⟨rfl, -⟩ := ht
      simp at he
    | short =>
      simp only [List.cons_append, List.nil_append, List.cons.injEq, true_and] at ht
      obtain ⟨rfl, -⟩ := ht
      simp at he
    | long =>
      simp only [List.cons_append, List.nil_append, List.cons.injEq, true_and] at ht
      obtain ⟨rfl, -⟩ := ht
      simp at he
  | @byte ds t v b hl hd h ih =>
    intro v' h'
    generalize ht : (92 :: 120 :: ds) ++ t = t0 at h'
    cases h' with
    | nil => simp at ht
    | @char c' cs' t' v' hc' _ h2 _ h' => simp only [List.cons_append, List.cons.injEq] at ht; exact absurd ht.1.symm h2
    | @esc e' b' t' v' he' h' =>
      simp only [List.cons_append, List.nil_append, List.cons.injEq, true_and] at ht
      obtain ⟨rfl, -⟩ := ht
      simp at he'
    | byte hl' hd' h' =>
      simp only [List.cons_append, List.cons.injEq, true_and] at ht
      obtain ⟨rfl, rfl⟩ := List.append_inj ht (by omega)
      rw [UInt8.toNat_inj.1 (hexNumber_unique hd hd'), ih _ h']
    | short => simp at ht
    | long => simp at ht
  | @short ds t v b hl hd h ih =>
    intro v' h'
    generalize ht : (92 :: 117 :: ds) ++ t = t0 at h'
    cases h' with
    | nil => simp at ht
    | @char c' cs' t' v' hc' _ h2 _ h' => simp only [List.cons_append, List.cons.injEq] at ht; exact absurd ht.1.symm h2
    | @esc e' b' t' v' he' h' =>
      simp only [List.cons_append, List.nil_append, List.cons.injEq, true_and] at ht
      obtain ⟨rfl, -⟩ := ht
      simp at he'
    | byte => simp at ht
    | short hl' hd' h' =>
      simp only [List.cons_append, List.cons.injEq, true_and] at ht
      obtain ⟨rfl, rfl⟩ := List.append_inj ht (by omega)
      rw [char_toNat_inj (hexNumber_unique hd hd'), ih _ h']
    | long => simp at ht
  | @long ds t v b hl hd h ih =>
    intro v' h'
    generalize ht : (92 :: 85 :: ds) ++ t = t0 at h'
    cases h' with
    | nil => simp at ht
    | @char c' cs' t' v' hc' _ h2 _ h' => simp only [List.cons_append, List.cons.injEq] at ht; exact absurd ht.1.symm h2
    | @esc e' b' t' v' he' h' =>
      simp only [List.cons_append, List.nil_append, List.cons.injEq, true_and] at ht
      obtain ⟨rfl, -⟩ := ht
      simp at he'
    | byte => simp at ht
    | short => simp at ht
    | long hl' hd' h' =>
      simp only [List.cons_append, List.cons.injEq, true_and] at ht
      obtain ⟨rfl, rfl⟩ := List.append_inj ht (by omega)
      rw [char_toNat_inj (hexNumber_unique hd hd'), ih _ h']

theorem isChar_single {c : UInt8} {cs : Bytes} {ch : Char} (h : c :: cs = String.utf8EncodeChar ch) (hr : ch.toNat < 128) :
    c.toNat = ch.toNat ∧ cs = [] := by
  have e := runeOf_char ch
  have hv : String.utf8EncodeChar ch = [UInt8.ofNat ch.toNat] := by
    unfold String.utf8EncodeChar
    dsimp only
    rw [if_pos (show ch.val.toNat ≤ 127 from by have : ch.val.toNat < 128 := hr; omega)]
    rfl
  rw [hv] at h
  simp only [List.cons.injEq] at h
  obtain ⟨rfl, rfl⟩ := h
  exact ⟨by rw [UInt8.toNat_ofNat']; omega, rfl⟩

/-- One character as it is shown. -/
theorem escapeRune_literal (p : Nat → Bool) (ch : Char) {t v : Bytes} (h : GoLiteral t v) :
    GoLiteral (escapeRune p (String.utf8EncodeChar ch) ch.toNat ++ t) (String.utf8EncodeChar ch ++ v) := by
  obtain ⟨c, cs, e⟩ := isChar_cons ⟨ch, rfl⟩
  have hlow : ∀ r : Nat, ch.toNat = r → r < 128 → c = UInt8.ofNat r ∧ cs = [] := by
    intro r hr hr'
    obtain ⟨h1, h2⟩ := isChar_single e.symm (by omega)
    exact ⟨UInt8.toNat_inj.1 (by rw [h1, hr, UInt8.toNat_ofNat']; omega), h2⟩
  have hbyte : ∀ b : UInt8, c = b → b.toNat < 128 → ch.toNat = b.toNat := by
    rintro b rfl hb
    have hcs : cs = [] := isChar_low ⟨ch, e.symm⟩ hb
    have := runeOf_char ch
    rw [e, hcs] at this
    exact this.symm
  rw [escapeRune]
  split
  · rename_i hr
    rcases hr with hr | hr
    · obtain ⟨rfl, rfl⟩ := hlow _ hr (by omega)
      rw [e]
      exact .esc (e := 34) (b := 34) (by simp) h
    · obtain ⟨rfl, rfl⟩ := hlow _ hr (by omega)
      rw [e]
      exact .esc (e := 92) (b := 92) (by simp) h
  rename_i hr1
  split
  · rename_i hp
    rw [e]
    refine .char ⟨ch, e.symm⟩ ?_ ?_ ?_ h
    · intro hc; exact hr1 (.inl (hbyte 34 hc (by decide)))
    · intro hc; exact hr1 (.inr (hbyte 92 hc (by decide)))
    · intro hc
      have := hbyte 10 hc (by decide)
      rw [this] at hp
      simp [isPrint] at hp
  split
  · rename_i hr; obtain ⟨rfl, rfl⟩ := hlow _ hr (by omega); rw [e]; exact .esc (e := 97) (b := 7) (by simp) h
  split
  · rename_i hr; obtain ⟨rfl, rfl⟩ := hlow _ hr (by omega); rw [e]; exact .esc (e := 98) (b := 8) (by simp) h
  split
  · rename_i hr; obtain ⟨rfl, rfl⟩ := hlow _ hr (by omega); rw [e]; exact .esc (e := 102) (b := 12) (by simp) h
  split
  · rename_i hr; obtain ⟨rfl, rfl⟩ := hlow _ hr (by omega); rw [e]; exact .esc (e := 110) (b := 10) (by simp) h
  split
  · rename_i hr; obtain ⟨rfl, rfl⟩ := hlow _ hr (by omega); rw [e]; exact .esc (e := 114) (b := 13) (by simp) h
  split
  · rename_i hr; obtain ⟨rfl, rfl⟩ := hlow _ hr (by omega); rw [e]; exact .esc (e := 116) (b := 9) (by simp) h
  split
  · rename_i hr; obtain ⟨rfl, rfl⟩ := hlow _ hr (by omega); rw [e]; exact .esc (e := 118) (b := 11) (by simp) h
  split
  · rename_i hr
    obtain ⟨h1, rfl⟩ := isChar_single e.symm (by omega)
    have := hexFixed_number 2 ch.toNat
    rw [Nat.mod_eq_of_lt (by omega), ← h1] at this
    rw [e, ← h1]
    exact .byte (length_hexFixed _ _) this h
  split
  · rename_i hr
    have := hexFixed_number 4 ch.toNat
    rw [Nat.mod_eq_of_lt (by omega)] at this
    exact .short (length_hexFixed _ _) this h
  · have := hexFixed_number 8 ch.toNat
    have hv : ch.toNat < 0xD800 ∨ (0xDFFF < ch.toNat ∧ ch.toNat < 0x110000) := char_valid ch
    rw [Nat.mod_eq_of_lt (by omega)] at this
    exact .long (length_hexFixed _ _) this h

theorem goQuoteAux_literal (p : Nat → Bool) : ∀ n s, s.length ≤ n → GoLiteral (goQuoteAux p n s) s
  | 0, s, h => by
    cases s with
    | nil => exact .nil
    | cons => simp at h
  | n + 1, [], _ => by rw [goQuoteAux.eq_2 _ _ (by simp)]; exact .nil
  | n + 1, a :: r, h => by
    simp only [List.length_cons] at h
    rw [goQuoteAux]
    cases hl : utf8Len (a :: r) with
    | zero =>
      have ih := goQuoteAux_literal p n r (by omega)
      have hn := hexFixed_number 2 a.toNat
      have := a.toNat_lt
      rw [Nat.mod_eq_of_lt (by omega)] at hn
      exact .byte (length_hexFixed _ _) hn ih
    | succ k =>
      obtain ⟨ch, hch⟩ := char_of_utf8Len hl
      have ih := goQuoteAux_literal p n (r.drop k) (by simp; omega)
      have := escapeRune_literal p ch ih
      rw [← hch, ← runeOf_char, ← hch] at this
      simpa using this

/-- Where a line has its first `="`. -/
theorem line_split_le {k k' t t' v v' : Bytes} (h : GoLiteral t v) (h' : GoLiteral t' v')
    (e : k ++ 61 :: 34 :: (t ++ [34]) = k' ++ 61 :: 34 :: (t' ++ [34])) : ∀ as, k' = k ++ as → as = [] := by
  rintro as rfl
  rw [List.append_assoc, List.append_cancel_left_eq] at e
  match as, e with
  | [], _ => rfl
  | [x], e => simp at e
  | x :: y :: as, e =>
    simp only [List.cons_append, List.cons.injEq] at e
    have e := e.2.2
    exfalso
    rw [show as ++ 61 :: 34 :: (t' ++ [34]) = (as ++ 61 :: 34 :: t') ++ [34] by simp] at e
    have e := List.append_cancel_right e
    obtain ⟨p, hp⟩ := (literal_chars h).2 (as ++ [61]) t' (by rw [e]; simp)
    have := List.append_inj' hp rfl
    simp at this

theorem line_split {k k' t t' v v' : Bytes} (h : GoLiteral t v) (h' : GoLiteral t' v')
    (e : k ++ 61 :: 34 :: (t ++ [34]) = k' ++ 61 :: 34 :: (t' ++ [34])) : k = k' ∧ t = t' := by
  have hk : k = k' := by
    rcases List.append_eq_append_iff.1 e with ⟨as, h1, -⟩ | ⟨as, h1, -⟩
    · have := line_split_le h h' e as h1
      rw [h1, this]; simp
    · have := line_split_le h' h e.symm as h1
      rw [h1, this]; simp
  subst hk
  refine ⟨rfl, ?_⟩
  simpa using e

/-- The first line feed. -/
theorem first_newline {a b r s : Bytes} (ha : (10 : UInt8) ∉ a) (hb : (10 : UInt8) ∉ b) (e : a ++ 10 :: r = b ++ 10 :: s) : a = b ∧ r = s := by
  induction a generalizing b with
  | nil =>
    cases b with
    | nil => simpa using e
    | cons y b => simp at e hb; exact absurd e.1 hb.1
  | cons x a ih =>
    cases b with
    | nil => simp at e ha; exact absurd e.1.symm ha.1
    | cons y b =>
      simp only [List.cons_append, List.cons.injEq] at e
      simp only [List.mem_cons, not_or] at ha hb
      obtain ⟨h1, h2⟩ := ih ha.2 hb.2 e.2
      exact ⟨by rw [e.1, h1], h2⟩

theorem annotationsString_cons (p : Nat → Bool) (a : Annotation) (as : List Annotation) :
    ∃ t, GoLiteral t (a.value.getD []) ∧
      annotationsString p (a :: as) = (a.key ++ 61 :: 34 :: (t ++ [34])) ++ 10 :: annotationsString p as :=
  ⟨_, goQuoteAux_literal p _ _ (Nat.le_refl _), by simp [annotationsString, goQuote]⟩

theorem line_no_newline {k t v : Bytes} (hk : (10 : UInt8) ∉ k) (h : GoLiteral t v) : (10 : UInt8) ∉ k ++ 61 :: 34 :: (t ++ [34]) := by
  simp [hk, (literal_chars h).1]

theorem text_inj (p q : Nat → Bool) : ∀ as bs : List Annotation, (∀ a ∈ as, (10 : UInt8) ∉ a.key) → (∀ b ∈ bs, (10 : UInt8) ∉ b.key) →
    annotationsString p as = annotationsString q bs → List.Forall₂ ShownAlike as bs
  | [], [], _, _, _ => .nil
  | [], b :: bs, _, _, e => by
    obtain ⟨t, -, h⟩ := annotationsString_cons q b bs
    rw [h] at e; simp [annotationsString] at e
  | a :: as, [], _, _, e => by
    obtain ⟨t, -, h⟩ := annotationsString_cons p a as
    rw [h] at e; simp [annotationsString] at e
  | a :: as, b :: bs, ha, hb, e => by
    obtain ⟨t, ht, h⟩ := annotationsString_cons p a as
    obtain ⟨t', ht', h'⟩ := annotationsString_cons q b bs
    rw [h, h'] at e
    obtain ⟨e1, e2⟩ := first_newline (line_no_newline (ha a (by simp)) ht) (line_no_newline (hb b (by simp)) ht') e
    obtain ⟨e3, e4⟩ := line_split ht ht' e1
    subst e4
    exact .cons ⟨e3, literal_unique ht _ ht'⟩
      (text_inj p q as bs (fun x hx => ha x (by simp [hx])) (fun x hx => hb x (by simp [hx])) e2)

/-- Printable ASCII is shown as it is. -/
theorem goQuoteAux_plain (p : Nat → Bool) : ∀ n v, v.length ≤ n → (∀ c ∈ v, 32 ≤ c.toNat ∧ c.toNat ≤ 126 ∧ c ≠ 34 ∧ c ≠ 92) →
    goQuoteAux p n v = v
  | 0, v, h, _ => by
    cases v with
    | nil => rfl
    | cons => simp at h
  | n + 1, [], _, _ => by rw [goQuoteAux.eq_2 _ _ (by simp)]
  | n + 1, a :: r, h, hc => by
    simp only [List.length_cons] at h
    obtain ⟨h1, h2, h3, h4⟩ := hc a (by simp)
    have hl : utf8Len (a :: r) = 1 := by
      have := utf8Len_isChar (isChar_ascii (c := a) (by omega)) r
      simpa using this
    rw [goQuoteAux, hl]
    have e34 : ¬ (a.toNat = 34 ∨ a.toNat = 92) := by
      rintro (h | h)
      · exact h3 (UInt8.toNat_inj.1 h)
      · exact h4 (UInt8.toNat_inj.1 h)
    have hp : isPrint p a.toNat = true := by simp [isPrint, h1, h2]; omega
    have hr : runeOf [a] = a.toNat := rfl
    simp only [List.take_zero, List.drop_zero, hr, escapeRune, if_neg e34, hp, if_true]
    rw [goQuoteAux_plain p n r (by omega) (fun c hcr => hc c (by simp [hcr]))]
    rfl

end Appdash
