import Verif.Proofs.Utf8
import Verif.Proofs.JsonNumber

/-! # Every JSON text is read as its value -/

namespace Appdash

set_option maxRecDepth 10000

/-! ## Strings -/

theorem hexVal_iff (c : UInt8) (x : Nat) : hexVal c = some x ↔ HexDigit c x := by
  unfold hexVal HexDigit
  constructor
  · intro h
    split at h
    · cases h; omega
    · split at h
      · cases h; omega
      · split at h
        · cases h; omega
        · cases h
  · intro h
    rcases h with ⟨h1, h2⟩ | ⟨h1, h2, h3 | h3⟩
    · rw [if_pos (by omega)]; congr 1; omega
    · rw [if_neg (by omega), if_pos (by omega)]; congr 1; omega
    · rw [if_neg (by omega), if_neg (by omega), if_pos (by omega)]; congr 1; omega

instance (c : UInt8) (x : Nat) : Decidable (HexDigit c x) := by
  unfold HexDigit
  infer_instance

theorem hexDigit_char (d : Nat) (h : d < 16) : HexDigit (hexDigitChar d) d := (hexVal_iff _ _).1 (hexVal_char d h)

theorem getu4_hex4 {ds : Bytes} {u : Nat} (h : Hex4 ds u) (t : Bytes) : getu4 (ds ++ t) = some (u, t) := by
  obtain ⟨a, b, c, d, x, y, z, w, rfl, h1, h2, h3, h4, rfl⟩ := h
  rw [← hexVal_iff] at h1 h2 h3 h4
  simp only [List.cons_append, List.nil_append, getu4, h1, h2, h3, h4, Option.some.injEq, Prod.mk.injEq, and_true]
  omega

theorem hex4_length {ds : Bytes} {u : Nat} (h : Hex4 ds u) : ds.length = 4 := by
  obtain ⟨a, b, c, d, x, y, z, w, rfl, -⟩ := h
  rfl

theorem hex4_cons {ds : Bytes} {u : Nat} (h : Hex4 ds u) : ∃ a b c d, ds = [a, b, c, d] := by
  obtain ⟨a, b, c, d, x, y, z, w, rfl, -⟩ := h
  exact ⟨a, b, c, d, rfl⟩

theorem hex4_lt {ds : Bytes} {u : Nat} (h : Hex4 ds u) : u < 0x10000 := by
  obtain ⟨a, b, c, d, x, y, z, w, rfl, h1, h2, h3, h4, rfl⟩ := h
  unfold HexDigit at h1 h2 h3 h4
  omega

/-- No character begins at a byte that belongs to none, also when the closing quote is taken into account. -/
theorem noChar_quote {c : UInt8} {t : Bytes} (h : NoChar (c :: t)) (rest : Bytes) : NoChar (c :: t ++ 34 :: rest) := by
  intro bs r he hc
  rcases List.append_eq_append_iff.1 he with ⟨a, rfl, h2⟩ | ⟨a, h1, h2⟩
  · cases a with
    | nil => exact h (c :: t) [] (by simp) (by simpa using hc)
    | cons x a =>
      simp only [List.cons_append, List.cons.injEq] at h2
      have := isChar_cont (cs := t ++ x :: a) (by simpa using hc) x (by simp)
      rw [← h2.1] at this
      exact absurd this (by decide)
  · exact h bs a h1 hc

theorem getu4_some {s : Bytes} {u : Nat} {r : Bytes} (h : getu4 s = some (u, r)) : ∃ ds, s = ds ++ r ∧ Hex4 ds u := by
  unfold getu4 at h
  split at h
  · rename_i a b c d r'
    split at h
    · rename_i x y z w h1 h2 h3 h4
      simp only [Option.some.injEq, Prod.mk.injEq] at h
      obtain ⟨h, rfl⟩ := h
      refine ⟨[a, b, c, d], rfl, a, b, c, d, x, y, z, w, rfl, (hexVal_iff _ _).1 h1, (hexVal_iff _ _).1 h2, (hexVal_iff _ _).1 h3,
        (hexVal_iff _ _).1 h4, by omega⟩
    · cases h
  · cases h

theorem surrogate_lone {t v : Bytes} {u : Nat} (hu : 0xD800 ≤ u ∧ u < 0xE000)
    (hn : ¬ ∃ ds' t' u', t = 92 :: 117 :: (ds' ++ t') ∧ Hex4 ds' u' ∧ u < 0xDC00 ∧ 0xDC00 ≤ u' ∧ u' < 0xE000) (h : StrText t v)
    (rest : Bytes) : surrogate u (t ++ 34 :: rest) = (0xFFFD, t ++ 34 :: rest) := by
  unfold surrogate
  rw [if_pos hu]
  split
  · rename_i r' he
    split
    · rename_i w r'' hg
      rw [if_neg]
      intro hw
      obtain ⟨ds, rfl, hd⟩ := getu4_some hg
      have hd0 := hd
      obtain ⟨a', b', c', d', x, y, z, w', he', g1, g2, g3, g4, -⟩ := hd
      subst he'
      have ne : ∀ (q : UInt8) (x : Nat), HexDigit q x → q ≠ 34 := by
        rintro q x hq rfl
        have : (34 : UInt8).toNat = 34 := rfl
        unfold HexDigit at hq
        omega
      match t, he with
      | [], he => cases he
      | [_], he => simp at he
      | [_, _], he => simp at he; exact absurd he.2.2.1.symm (ne _ _ g1)
      | [_, _, _], he => simp at he; exact absurd he.2.2.2.1.symm (ne _ _ g2)
      | [_, _, _, _], he => simp at he; exact absurd he.2.2.2.2.1.symm (ne _ _ g3)
      | [_, _, _, _, _], he => simp at he; exact absurd he.2.2.2.2.2.1.symm (ne _ _ g4)
      | x1 :: x2 :: x3 :: x4 :: x5 :: x6 :: t', he =>
        simp only [List.cons_append, List.nil_append, List.cons.injEq] at he
        obtain ⟨rfl, rfl, rfl, rfl, rfl, rfl, -⟩ := he
        exact hn ⟨[x3, x4, x5, x6], t', w, rfl, hd0, hw⟩
    · rfl
  · rfl

theorem parseStr_text {t v : Bytes} (h : StrText t v) (rest : Bytes) :
    ∀ f, t.length < f → parseStr f (t ++ 34 :: rest) = some (v, rest) := by
  induction h with
  | nil =>
    intro f hf
    cases f with
    | zero => omega
    | succ f => simp [parseStr]
  | @char c cs t v hc h1 h2 h3 h ih =>
    intro f hf
    cases f with
    | zero => omega
    | succ f =>
      simp only [List.length_cons, List.length_append] at hf
      have hu := utf8Len_isChar hc (t ++ 34 :: rest)
      rw [List.cons_append, List.length_cons] at hu
      rw [List.cons_append, List.append_assoc, parseStr_plain f c _ h1 h2 h3 cs.length hu]
      simp only [List.take_left', List.drop_left', ih f (by omega), pushFront, Option.map_some, List.cons_append]
  | @bad c t v hc h ih =>
    intro f hf
    cases f with
    | zero => omega
    | succ f =>
      simp only [List.length_cons] at hf
      have h128 := noChar_high hc
      have hu := utf8Len_bad (noChar_quote hc rest)
      rw [List.cons_append] at hu ⊢
      have h1 : ¬ c = 34 := by rintro rfl; exact absurd h128 (by decide)
      have h2 : ¬ c = 92 := by rintro rfl; exact absurd h128 (by decide)
      simp only [parseStr, h1, h2, if_false, show ¬ c.toNat < 32 by omega, hu, ih f (by omega), replacement_eq, List.cons_append,
        List.nil_append]
  | @lone ds t v u hd hu hn h ih =>
    intro f hf
    cases f with
    | zero => omega
    | succ f =>
      have hl := hex4_length hd
      simp only [List.length_cons, List.length_append] at hf
      have e : (92 :: 117 :: (ds ++ t)) ++ 34 :: rest = 92 :: 117 :: (ds ++ (t ++ 34 :: rest)) := by simp
      have hs : surrogate u (t ++ 34 :: rest) = (0xFFFD, t ++ 34 :: rest) := surrogate_lone hu hn h rest
      rw [e]
      simp only [parseStr, show ¬ (92 : UInt8) = 34 by decide, if_false, if_true, getu4_hex4 hd, hs, ih f (by omega), replacement_eq]
      rfl
  | @esc e b t v he h ih =>
    intro f hf
    cases f with
    | zero => omega
    | succ f =>
      simp only [List.length_cons] at hf
      have : e ≠ 117 ∧ escapeChar e = some b := by
        revert he
        simp only [List.mem_cons, List.not_mem_nil, or_false, Prod.mk.injEq]
        rintro (⟨rfl, rfl⟩ | ⟨rfl, rfl⟩ | ⟨rfl, rfl⟩ | ⟨rfl, rfl⟩ | ⟨rfl, rfl⟩ | ⟨rfl, rfl⟩ | ⟨rfl, rfl⟩ | ⟨rfl, rfl⟩) <;> decide
      rw [List.cons_append, List.cons_append, parseStr_escape f e b _ this.1 this.2, ih f (by omega)]
      rfl
  | @uni ds t v u hd hu h ih =>
    intro f hf
    cases f with
    | zero => omega
    | succ f =>
      have hl := hex4_length hd
      have hg := getu4_hex4 hd (t ++ 34 :: rest)
      obtain ⟨a, b, c, d, rfl⟩ := hex4_cons hd
      simp only [List.length_cons, List.length_append, List.length_nil] at hf
      simp only [List.cons_append, List.nil_append] at hg ⊢
      rw [parseStr_unicode f a b c d _ u hg hu, ih f (by omega), ← encodeRune_char (by have := hex4_lt hd; omega)]
      simp [pushFront]
  | @pair ds ds' t v u u' hd hd' hu hu' h ih =>
    intro f hf
    cases f with
    | zero => omega
    | succ f =>
      have hl := hex4_length hd
      have hl' := hex4_length hd'
      simp only [List.length_cons, List.length_append] at hf
      have e : (92 :: 117 :: (ds ++ 92 :: 117 :: (ds' ++ t))) ++ 34 :: rest =
          92 :: 117 :: (ds ++ (92 :: 117 :: (ds' ++ (t ++ 34 :: rest)))) := by simp
      have hg := getu4_hex4 hd (92 :: 117 :: (ds' ++ (t ++ 34 :: rest)))
      have hg' := getu4_hex4 hd' (t ++ 34 :: rest)
      have hs : surrogate u (92 :: 117 :: (ds' ++ (t ++ 34 :: rest))) =
          (0x10000 + (u - 0xD800) * 0x400 + (u' - 0xDC00), t ++ 34 :: rest) := by
        simp only [surrogate, hg']
        rw [if_pos (by omega), if_pos (by omega), Prod.mk.injEq]
        exact ⟨by omega, rfl⟩
      rw [e, ← encodeRune_char (by omega)]
      simp only [parseStr, show ¬ (92 : UInt8) = 34 by decide, if_false, if_true, hg, hs, ih f (by omega)]

theorem parseStr_text' {t v : Bytes} (h : StrText t v) (rest : Bytes) :
    parseStr ((t ++ 34 :: rest).length + 1) (t ++ 34 :: rest) = some (v, rest) :=
  parseStr_text h rest _ (by rw [List.length_append]; omega)

theorem escapeChar_mem {e c : UInt8} : escapeChar e = some c →
    (e, c) ∈ [(34, 34), (92, 92), (47, 47), (98, 8), (102, 12), (110, 10), (114, 13), ((116, 9) : UInt8 × UInt8)] := by
  unfold escapeChar
  repeat' split
  all_goals simp_all
  all_goals grind

theorem strText_quoteByte (c : UInt8) (h : c.toNat < 128) {t v : Bytes} (ht : StrText t v) : StrText (quoteByte c ++ t) (c :: v) := by
  rcases quoteByte_cases c h with ⟨e, h1, h2, h3⟩ | h1 | ⟨h1, h2, h3, h4⟩
  · rw [h1]
    refine .esc ?_ ht
    clear h1 ht h2
    exact escapeChar_mem h3
  · rw [h1]
    have he : String.utf8EncodeChar (Char.ofNat c.toNat) = [c] := by
      rw [← encodeRune_char (by omega)]
      simp [encodeRune, h]
    have := StrText.uni (ds := [48, 48, hexDigitChar (c.toNat / 16), hexDigitChar (c.toNat % 16)]) (u := c.toNat)
      ⟨48, 48, _, _, 0, 0, c.toNat / 16, c.toNat % 16, rfl, by decide, by decide, hexDigit_char _ (by omega), hexDigit_char _ (by omega),
        by omega⟩ (by omega) ht
    rw [he] at this
    exact this
  · rw [h1]
    exact StrText.char (cs := []) (isChar_ascii h) h2 h3 h4 ht

theorem strText_quoteAux (m : Nat) : ∀ s : Bytes, s.length ≤ m → StrText (quoteAux m s) (cleanUTF8Aux m s) := by
  induction m with
  | zero =>
    intro s hs
    simp only [quoteAux, cleanUTF8Aux]
    exact .nil
  | succ m ih =>
    intro s hs
    cases s with
    | nil =>
      simp only [quoteAux, cleanUTF8Aux]
      exact .nil
    | cons a r =>
      simp only [List.length_cons] at hs
      by_cases ha : a.toNat < 128
      · have hl : utf8Len (a :: r) = 1 := by simp [utf8Len, ha]
        simp only [quoteAux, ha, if_true, cleanUTF8Aux, hl, List.take_zero, List.drop_zero, List.nil_append]
        exact strText_quoteByte a ha (ih r (by omega))
      · simp only [quoteAux, ha, if_false, cleanUTF8Aux]
        cases hl : utf8Len (a :: r) with
        | zero =>
          exact StrText.uni (ds := b!"fffd") (u := 0xfffd)
            ⟨_, _, _, _, 15, 15, 15, 13, rfl, by decide, by decide, by decide, by decide, by decide⟩ (by omega) (ih r (by omega))
        | succ k =>
          have hd : (r.drop k).length ≤ m := by rw [List.length_drop]; omega
          obtain ⟨hp, hkl⟩ := utf8Len_take hl []
          have ht : (r.take k).length = k := by rw [List.length_take]; omega
          simp only
          split
          · rename_i he
            have := StrText.uni (ds := b!"2028") (u := 0x2028)
              ⟨_, _, _, _, 2, 0, 2, 8, rfl, by decide, by decide, by decide, by decide, by decide⟩ (by omega) (ih _ hd)
            rw [← encodeRune_char (by omega), show encodeRune 0x2028 = a :: r.take k by rw [he]; decide] at this
            exact this
          · split
            · rename_i he
              have := StrText.uni (ds := b!"2029") (u := 0x2029)
                ⟨_, _, _, _, 2, 0, 2, 9, rfl, by decide, by decide, by decide, by decide, by decide⟩ (by omega) (ih _ hd)
              rw [← encodeRune_char (by omega), show encodeRune 0x2029 = a :: r.take k by rw [he]; decide] at this
              exact this
            · refine StrText.char ?_ ?_ ?_ ?_ (ih _ hd)
              · exact char_of_utf8Len hl
              · rintro rfl; exact ha (by decide)
              · rintro rfl; exact ha (by decide)
              · omega

theorem strText_quote (s : Bytes) : StrText (quoteAux s.length s) (cleanUTF8 s) := strText_quoteAux _ _ (Nat.le_refl _)

/-! ## Values -/

theorem jText_starts {t : Bytes} {v : JVal} (h : JText t v) : ∃ c s, t = c :: s ∧ Starts c := by
  cases h with
  | null => exact ⟨_, _, rfl, by unfold Starts; decide⟩
  | true => exact ⟨_, _, rfl, by unfold Starts; decide⟩
  | false => exact ⟨_, _, rfl, by unfold Starts; decide⟩
  | num h =>
    obtain ⟨neg, int, frac, exp, h1, h2, -⟩ := (numText_iff _ _).1 h
    cases neg
    · obtain ⟨g1, g2⟩ := intText_decimals h2
      obtain ⟨d, ds, rfl⟩ := List.exists_cons_of_ne_nil g2
      exact ⟨d, _, h1, (starts_digit ((isDigitByte_iff d).2 (g1 d (by simp)))).1⟩
    · exact ⟨45, _, h1, by unfold Starts; decide⟩
  | str h => exact ⟨_, _, rfl, by unfold Starts; decide⟩
  | arr0 h => exact ⟨_, _, rfl, by unfold Starts; decide⟩
  | arr h => exact ⟨_, _, rfl, by unfold Starts; decide⟩
  | obj0 h => exact ⟨_, _, rfl, by unfold Starts; decide⟩
  | obj h => exact ⟨_, _, rfl, by unfold Starts; decide⟩

theorem jElems_skip {t : Bytes} {l : List JVal} (h : JElems t l) (rest : Bytes) :
    ∃ c s, skipWS (t ++ rest) = c :: s ∧ c ≠ 93 := by
  cases h with
  | last hw h hw' =>
    obtain ⟨c, s, rfl, hs⟩ := jText_starts h
    rw [List.append_assoc, List.cons_append, List.cons_append, skipWS_blank_cons hw hs.1]
    exact ⟨_, _, rfl, hs.2.1⟩
  | cons hw h hw' hr =>
    obtain ⟨c, s, rfl, hs⟩ := jText_starts h
    rw [List.append_assoc, List.cons_append, List.cons_append, skipWS_blank_cons hw hs.1]
    exact ⟨_, _, rfl, hs.2.1⟩

theorem jMembers_skip {t : Bytes} {l : List (Bytes × JVal)} (h : JMembers t l) (rest : Bytes) :
    ∃ c s, skipWS (t ++ rest) = c :: s ∧ c ≠ 125 := by
  cases h with
  | last hw hk h1 h2 h hw' =>
    rw [List.append_assoc, List.cons_append, skipWS_blank_cons hw (by decide)]
    exact ⟨_, _, rfl, by decide⟩
  | cons hw hk h1 h2 h hw' hr =>
    rw [List.append_assoc, List.cons_append, skipWS_blank_cons hw (by decide)]
    exact ⟨_, _, rfl, by decide⟩

theorem skipWS_idem (s : Bytes) : skipWS (skipWS s) = skipWS s := by
  unfold skipWS
  induction s with
  | nil => rfl
  | cons c s ih =>
    rw [List.dropWhile_cons]
    split
    · exact ih
    · rename_i h
      rw [List.dropWhile_cons, if_neg h]

theorem parseVal_skip (n : Nat) (s : Bytes) : parseVal n (skipWS s) = parseVal n s := by
  cases n with
  | zero => rfl
  | succ n => simp only [parseVal, skipWS_idem]

theorem parseElems_skip (n : Nat) (s : Bytes) : parseElems n (skipWS s) = parseElems n s := by
  cases n with
  | zero => rfl
  | succ n => simp only [parseElems, parseVal_skip]

theorem parseMembers_skip (n : Nat) (s : Bytes) : parseMembers n (skipWS s) = parseMembers n s := by
  cases n with
  | zero => rfl
  | succ n => simp only [parseMembers, skipWS_idem]

mutual
theorem parseVal_text {t : Bytes} {v : JVal} (h : JText t v) (n : Nat) (w rest : Bytes) (hw : Blank w) (hn : t.length ≤ n)
    (hr : Ends rest ∨ ∀ i, v ≠ .num i) : parseVal n (w ++ (t ++ rest)) = some (v, rest) := by
  obtain ⟨c, s, hc, hs⟩ := jText_starts h
  cases n with
  | zero => rw [hc] at hn; simp at hn
  | succ n =>
  have hsk : skipWS (w ++ (t ++ rest)) = t ++ rest := by rw [hc, List.cons_append, skipWS_blank_cons hw hs.1]
  clear hc hs
  cases h with
  | null => simp only [parseVal, hsk]; rfl
  | true => simp only [parseVal, hsk]; rfl
  | false => simp only [parseVal, hsk]; rfl
  | num h =>
    obtain ⟨neg, int, frac, exp, rfl, h2, h3, h4, rfl⟩ := (numText_iff _ _).1 h
    have h5 := parseNumber_text neg h2 h3 h4 (hr.resolve_right fun h => h _ rfl)
    simp only [parseVal, hsk]
    cases neg
    · obtain ⟨g1, g2⟩ := intText_decimals h2
      obtain ⟨d, ds, rfl⟩ := List.exists_cons_of_ne_nil g2
      have hd := (isDigitByte_iff d).2 (g1 d (by simp))
      obtain ⟨-, k1, k2, k3, k4⟩ := starts_digit hd
      simp only [List.cons_append, List.append_assoc] at h5
      simp only [Bool.false_eq_true, if_false, List.nil_append, List.cons_append, List.append_assoc, k1, k2, k3, k4, hd, if_true, h5]
    · simp only [if_true, List.cons_append, List.nil_append, List.append_assoc, show ¬ (45 : UInt8) = 34 by decide,
        show ¬ (45 : UInt8) = 91 by decide, show ¬ (45 : UInt8) = 123 by decide, if_false, h5]
  | @str t s h =>
    have e : 34 :: (t ++ [34]) ++ rest = 34 :: (t ++ 34 :: rest) := by simp
    simp only [parseVal, hsk]
    rw [e]
    simp only [if_true, parseStr_text' h]
  | @arr0 w' hw' =>
    have e : 91 :: (w' ++ [93]) ++ rest = 91 :: (w' ++ 93 :: rest) := by simp
    simp only [parseVal, hsk]
    rw [e]
    simp only [show ¬ (91 : UInt8) = 34 by decide, if_false, if_true, skipWS_blank_cons hw' (show isWS 93 = false by decide)]
  | @arr t l h =>
    obtain ⟨c, s, h1, h2⟩ := jElems_skip h rest
    have h3 := parseElems_text h n rest (by simp only [List.length_cons] at hn; omega)
    rw [← parseElems_skip, h1] at h3
    simp only [parseVal, hsk]
    rw [List.cons_append]
    simp only [show ¬ (91 : UInt8) = 34 by decide, if_false, if_true, h1]
    split
    · rename_i heq
      simp only [List.cons.injEq] at heq
      exact absurd heq.1 h2
    · rw [h3]
  | @obj0 w' hw' =>
    have e : 123 :: (w' ++ [125]) ++ rest = 123 :: (w' ++ 125 :: rest) := by simp
    simp only [parseVal, hsk]
    rw [e]
    simp only [show ¬ (123 : UInt8) = 34 by decide, show ¬ (123 : UInt8) = 91 by decide, if_false, if_true,
      skipWS_blank_cons hw' (show isWS 125 = false by decide)]
  | @obj t l h =>
    obtain ⟨c, s, h1, h2⟩ := jMembers_skip h rest
    have h3 := parseMembers_text h n rest (by simp only [List.length_cons] at hn; omega)
    rw [← parseMembers_skip, h1] at h3
    simp only [parseVal, hsk]
    rw [List.cons_append]
    simp only [show ¬ (123 : UInt8) = 34 by decide, show ¬ (123 : UInt8) = 91 by decide, if_false, if_true, h1]
    split
    · rename_i heq
      simp only [List.cons.injEq] at heq
      exact absurd heq.1 h2
    · rw [h3]
termination_by n
theorem parseElems_text {t : Bytes} {l : List JVal} (h : JElems t l) (n : Nat) (rest : Bytes) (hn : t.length ≤ n) :
    parseElems n (t ++ rest) = some (l, rest) := by
  cases n with
  | zero =>
    obtain ⟨c, s, h1, -⟩ := jElems_skip h []
    have : t = [] := List.length_eq_zero_iff.1 (by omega)
    subst this
    simp [skipWS] at h1
  | succ n =>
    cases h with
    | @last w t w' v hw h hw' =>
      simp only [List.length_append, List.length_cons] at hn
      have hx := parseVal_text h n w (w' ++ 93 :: rest) hw (by omega) (.inl <| ends_blank hw' (.inr (.inl rfl)) _)
      have e : w ++ (t ++ (w' ++ [93])) ++ rest = w ++ (t ++ (w' ++ 93 :: rest)) := by simp
      rw [e]
      simp only [parseElems, hx, skipWS_blank_cons hw' (show isWS 93 = false by decide)]
    | @cons w t w' r v l hw h hw' hr =>
      simp only [List.length_append, List.length_cons] at hn
      have hx := parseVal_text h n w (w' ++ 44 :: (r ++ rest)) hw (by omega) (.inl <| ends_blank hw' (.inl rfl) _)
      have hy := parseElems_text hr n rest (by omega)
      have e : w ++ (t ++ (w' ++ 44 :: r)) ++ rest = w ++ (t ++ (w' ++ 44 :: (r ++ rest))) := by simp
      rw [e]
      simp only [parseElems, hx, skipWS_blank_cons hw' (show isWS 44 = false by decide), hy]
termination_by n
theorem parseMembers_text {t : Bytes} {l : List (Bytes × JVal)} (h : JMembers t l) (n : Nat) (rest : Bytes) (hn : t.length ≤ n) :
    parseMembers n (t ++ rest) = some (l, rest) := by
  cases n with
  | zero =>
    obtain ⟨c, s, h1, -⟩ := jMembers_skip h []
    have : t = [] := List.length_eq_zero_iff.1 (by omega)
    subst this
    simp [skipWS] at h1
  | succ n =>
    cases h with
    | @last w k w1 w2 t w' key v hw hk h1 h2 h hw' =>
      simp only [List.length_append, List.length_cons] at hn
      have hx := parseVal_text h n w2 (w' ++ 125 :: rest) h2 (by omega) (.inl <| ends_blank hw' (.inr (.inr rfl)) _)
      have e : w ++ 34 :: (k ++ 34 :: (w1 ++ 58 :: (w2 ++ (t ++ (w' ++ [125]))))) ++ rest =
          w ++ 34 :: (k ++ 34 :: (w1 ++ 58 :: (w2 ++ (t ++ (w' ++ 125 :: rest))))) := by simp
      rw [e]
      simp only [parseMembers, skipWS_blank_cons hw (show isWS 34 = false by decide), parseStr_text' hk,
        skipWS_blank_cons h1 (show isWS 58 = false by decide), hx, skipWS_blank_cons hw' (show isWS 125 = false by decide)]
    | @cons w k w1 w2 t w' key r v l hw hk h1 h2 h hw' hr =>
      simp only [List.length_append, List.length_cons] at hn
      have hx := parseVal_text h n w2 (w' ++ 44 :: (r ++ rest)) h2 (by omega) (.inl <| ends_blank hw' (.inl rfl) _)
      have hy := parseMembers_text hr n rest (by omega)
      have e : w ++ 34 :: (k ++ 34 :: (w1 ++ 58 :: (w2 ++ (t ++ (w' ++ 44 :: r))))) ++ rest =
          w ++ 34 :: (k ++ 34 :: (w1 ++ 58 :: (w2 ++ (t ++ (w' ++ 44 :: (r ++ rest)))))) := by simp
      rw [e]
      simp only [parseMembers, skipWS_blank_cons hw (show isWS 34 = false by decide), parseStr_text' hk,
        skipWS_blank_cons h1 (show isWS 58 = false by decide), hx, skipWS_blank_cons hw' (show isWS 44 = false by decide), hy]
termination_by n
end

mutual
/-- What is printed is JSON. -/
theorem print_text {L : Layout} (hL : L.Blank) (d : Nat) : ∀ v : JVal, JText (v.print L d) v.clean
  | .null => .null
  | .bool true => .true
  | .bool false => .false
  | .num (some i) => by rw [JVal.print, JVal.clean]; exact .num (numText_formatInt i)
  | .num none => .num numText_half
  | .str s => by rw [JVal.print, JVal.clean]; exact .str (strText_quote s)
  | .arr [] => .arr0 (w := []) Blank.nil
  | .arr (v :: vs) => by
    rw [JVal.print, JVal.clean, List.append_assoc]
    exact .arr (printElems_text hL d (L.nl (d + 1)) (hL.1 _) v vs)
  | .obj [] => .obj0 (w := []) Blank.nil
  | .obj ((k, v) :: ms) => by
    rw [JVal.print, JVal.clean]
    exact .obj (by simpa using printMembers_text hL d (L.nl (d + 1)) (hL.1 _) k v ms)
termination_by v => sizeOf v
theorem printElems_text {L : Layout} (hL : L.Blank) (d : Nat) (w : Bytes) (hw : Blank w) (v : JVal) :
    ∀ vs : List JVal, JElems (w ++ (v.print L (d + 1) ++ printElems L d vs)) (JVal.cleanList (v :: vs))
  | [] => by
    rw [printElems]
    exact .last hw (print_text hL (d + 1) v) (hL.1 d)
  | v' :: vs => by
    rw [printElems, JVal.cleanList, List.append_assoc]
    exact .cons (w' := []) hw (print_text hL (d + 1) v) Blank.nil (printElems_text hL d _ (hL.1 _) v' vs)
termination_by vs => sizeOf v + sizeOf vs
theorem printMembers_text {L : Layout} (hL : L.Blank) (d : Nat) (w : Bytes) (hw : Blank w) (k : Bytes) (v : JVal) :
    ∀ ms : List (Bytes × JVal), JMembers (w ++ (quoteString k ++ (L.colon ++ (v.print L (d + 1) ++ printMembers L d ms))))
      (JVal.cleanMembers ((k, v) :: ms))
  | [] => by
    obtain ⟨cw, hcol, hcw⟩ := hL.2
    have := JMembers.last hw (strText_quote k) Blank.nil hcw (print_text hL (d + 1) v) (hL.1 d)
    simpa [printMembers, quoteString, hcol, JVal.cleanMembers] using this
  | (k', v') :: ms => by
    obtain ⟨cw, hcol, hcw⟩ := hL.2
    have := JMembers.cons hw (strText_quote k) Blank.nil hcw (print_text hL (d + 1) v) (w' := []) Blank.nil
      (printMembers_text hL d _ (hL.1 (d + 1)) k' v' ms)
    rw [JVal.cleanMembers]
    simpa [printMembers, quoteString, hcol] using this
termination_by ms => sizeOf v + sizeOf ms
end

theorem parse_isJSON {text : Bytes} {v : JVal} (h : IsJSON text v) : parseJSON text = some v := by
  obtain ⟨w, t, w', hw, hw', ht, rfl⟩ := h
  have he : Ends w' := by
    cases w' with
    | nil => exact Ends.nil
    | cons c r => exact ends_of (.inl ((isWS_iff c).2 (hw' c (List.mem_cons_self ..)))) r
  have := parseVal_text ht ((w ++ (t ++ w')).length + 1) w w' hw (by simp only [List.length_append]; omega) (.inl he)
  rw [parseJSON, this]
  have : skipWS w' = [] := by
    have := skipWS_blank hw' []
    rwa [List.append_nil] at this
  simp only [this, if_true]

end Appdash
