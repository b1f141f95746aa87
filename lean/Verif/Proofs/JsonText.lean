import Verif.Spec.JsonText
import Verif.Proofs.Json
import Verif.Proofs.Strconv
import Verif.Proofs.Http

/-! # JSON as text: what is written is read back -/

namespace Appdash

set_option maxRecDepth 10000

/-! ## White space -/

theorem isWS_iff (c : UInt8) : isWS c = true ↔ c = 32 ∨ c = 9 ∨ c = 10 ∨ c = 13 := by simp [isWS]

theorem skipWS_blank {w : Bytes} (h : Blank w) (s : Bytes) : skipWS (w ++ s) = skipWS s := by
  unfold skipWS
  rw [List.dropWhile_append_of_pos]
  exact fun c hc => (isWS_iff c).2 (h c hc)

theorem skipWS_cons {c : UInt8} (h : isWS c = false) (s : Bytes) : skipWS (c :: s) = c :: s := by
  simp [skipWS, List.dropWhile_cons, h]

theorem skipWS_blank_cons {w : Bytes} (hw : Blank w) {c : UInt8} (h : isWS c = false) (s : Bytes) :
    skipWS (w ++ c :: s) = c :: s := by rw [skipWS_blank hw, skipWS_cons h]

theorem Blank.nil : Blank [] := by intro c hc; cases hc

/-! ## Strings -/

/-- Adding to the front of a parsed string. -/
def pushFront (p : Bytes) (x : Option (Bytes × Bytes)) : Option (Bytes × Bytes) := x.map fun y => (p ++ y.1, y.2)

theorem parseStr_plain (n : Nat) (c : UInt8) (t : Bytes) (h1 : c ≠ 34) (h2 : c ≠ 92) (h3 : 32 ≤ c.toNat) (k : Nat)
    (hk : utf8Len (c :: t) = k + 1) : parseStr (n + 1) (c :: t) = pushFront (c :: t.take k) (parseStr n (t.drop k)) := by
  have h3' : ¬ c.toNat < 32 := by omega
  simp only [parseStr, h1, h2, h3', if_false, hk, pushFront]
  cases parseStr n (t.drop k) with
  | none => rfl
  | some y => simp

theorem parseStr_escape (n : Nat) (e b : UInt8) (t : Bytes) (h1 : e ≠ 117) (h2 : escapeChar e = some b) :
    parseStr (n + 1) (92 :: e :: t) = pushFront [b] (parseStr n t) := by
  simp only [parseStr, show ¬ (92 : UInt8) = 34 by decide, if_false, if_true, h1, h2, pushFront]
  cases parseStr n t with
  | none => rfl
  | some y => simp

theorem parseStr_unicode (n : Nat) (a b c d : UInt8) (t : Bytes) (u : Nat) (h : getu4 (a :: b :: c :: d :: t) = some (u, t))
    (hu : ¬ (0xD800 ≤ u ∧ u < 0xE000)) :
    parseStr (n + 1) (92 :: 117 :: a :: b :: c :: d :: t) = pushFront (encodeRune u) (parseStr n t) := by
  simp only [parseStr, show ¬ (92 : UInt8) = 34 by decide, if_false, if_true, h, surrogate, hu, pushFront]
  cases parseStr n t with
  | none => rfl
  | some y => simp

theorem hexVal_char (d : Nat) (h : d < 16) : hexVal (hexDigitChar d) = some d :=
  (show ∀ d : Fin 16, hexVal (hexDigitChar d.val) = some d.val by decide) ⟨d, h⟩

theorem quoteByte_cases (c : UInt8) (h : c.toNat < 128) :
    ((∃ e, quoteByte c = [92, e] ∧ e ≠ 117 ∧ escapeChar e = some c)) ∨ quoteByte c = escapeU c ∨
      (quoteByte c = [c] ∧ c ≠ 34 ∧ c ≠ 92 ∧ 32 ≤ c.toNat) := by
  unfold quoteByte
  split
  · rename_i h
    rcases h with rfl | rfl
    · exact .inl ⟨34, by decide⟩
    · exact .inl ⟨92, by decide⟩
  · rename_i h0
    simp only [not_or] at h0
    split
    · rename_i h; subst h; exact .inl ⟨110, by decide⟩
    · split
      · rename_i h; subst h; exact .inl ⟨114, by decide⟩
      · split
        · rename_i h; subst h; exact .inl ⟨116, by decide⟩
        · split
          · exact .inr (.inl rfl)
          · rename_i h'
            simp only [not_or] at h'
            exact .inr (.inr ⟨rfl, h0.1, h0.2, by omega⟩)

theorem parseStr_quoteByte (n : Nat) (c : UInt8) (h : c.toNat < 128) (t : Bytes) :
    parseStr (n + 1) (quoteByte c ++ t) = pushFront [c] (parseStr n t) := by
  rcases quoteByte_cases c h with ⟨e, h1, h2, h3⟩ | h1 | ⟨h1, h2, h3, h4⟩
  · rw [h1]
    exact parseStr_escape n e c t h2 h3
  · rw [h1]
    have hg : getu4 (48 :: 48 :: hexDigitChar (c.toNat / 16) :: hexDigitChar (c.toNat % 16) :: t) = some (c.toNat, t) := by
      have e1 := hexVal_char (c.toNat / 16) (by omega)
      have e2 := hexVal_char (c.toNat % 16) (by omega)
      simp only [getu4, show hexVal 48 = some 0 by decide, e1, e2, Option.some.injEq, Prod.mk.injEq, and_true]
      omega
    have := parseStr_unicode n _ _ _ _ t c.toNat hg (by omega)
    have he : encodeRune c.toNat = [c] := by simp [encodeRune, h]
    rw [he] at this
    exact this
  · rw [h1]
    have := parseStr_plain n c t h2 h3 h4 0 (by simp [utf8Len, h])
    simpa using this

/-- A valid UTF-8 sequence is one whatever follows it. -/
theorem utf8Len_take {a : UInt8} {r : Bytes} {k : Nat} (h : utf8Len (a :: r) = k + 1) (t : Bytes) :
    utf8Len (a :: (r.take k ++ t)) = k + 1 ∧ k ≤ r.length := by
  unfold utf8Len at h ⊢
  dsimp only at h ⊢
  split at h
  · rename_i h1
    have : k = 0 := by omega
    subst this
    simp [h1]
  · rename_i h1
    split at h
    · rename_i h2
      cases r with
      | nil => simp at h
      | cons b r =>
        simp only at h
        split at h
        · rename_i h3
          have : k = 1 := by omega
          subst this
          simp [h1, h2, h3]
        · omega
    · rename_i h2
      split at h
      · rename_i h3
        match r, h with
        | [], h => simp at h
        | [_], h => simp at h
        | b :: c :: r, h =>
          simp only at h
          split at h
          · rename_i h4
            have : k = 2 := by omega
            subst this
            simp only [List.take_succ_cons, List.take_zero, List.cons_append, List.nil_append]
            rw [if_neg h1, if_neg h2, if_pos h3, if_pos h4]
            simp
          · omega
      · rename_i h3
        split at h
        · rename_i h4
          match r, h with
          | [], h => simp at h
          | [_], h => simp at h
          | [_, _], h => simp at h
          | b :: c :: d :: r, h =>
            simp only at h
            split at h
            · rename_i h5
              have : k = 3 := by omega
              subst this
              simp only [List.take_succ_cons, List.take_zero, List.cons_append, List.nil_append]
              rw [if_neg h1, if_neg h2, if_neg h3, if_pos h4, if_pos h5]
              simp
            · omega
        · omega

theorem quoteByte_length (c : UInt8) : 1 ≤ (quoteByte c).length :=
  byte_cases (fun c => 1 ≤ (quoteByte c).length) (by decide) c

theorem parseStr_quoteAux (m : Nat) : ∀ (s : Bytes) (f : Nat) (rest : Bytes), s.length ≤ m → (quoteAux m s).length < f →
    parseStr f (quoteAux m s ++ 34 :: rest) = some (cleanUTF8Aux m s, rest) := by
  induction m with
  | zero =>
    intro s f rest hs hf
    cases f with
    | zero => omega
    | succ f => simp [quoteAux, cleanUTF8Aux, parseStr]
  | succ m ih =>
    intro s f rest hs hf
    cases f with
    | zero => omega
    | succ f =>
    cases s with
    | nil => simp [quoteAux, cleanUTF8Aux, parseStr]
    | cons a r =>
      simp only [List.length_cons] at hs
      by_cases ha : a.toNat < 128
      · have hl : utf8Len (a :: r) = 1 := by simp [utf8Len, ha]
        simp only [quoteAux, ha, if_true, List.length_append] at hf ⊢
        have := quoteByte_length a
        rw [List.append_assoc, parseStr_quoteByte f a ha, ih r f rest (by omega) (by omega)]
        simp [pushFront, cleanUTF8Aux, hl]
      · simp only [quoteAux, ha, if_false] at hf ⊢
        cases hl : utf8Len (a :: r) with
        | zero =>
          simp only [hl, List.length_append] at hf ⊢
          have h1 := parseStr_unicode f 102 102 102 100 (quoteAux m r ++ 34 :: rest) 0xfffd (by
            simp only [getu4, show hexVal 102 = some 15 by decide, show hexVal 100 = some 13 by decide]) (by omega)
          rw [ih r f rest (by omega) (by simp only [List.length_cons, List.length_nil] at hf; omega)] at h1
          rw [List.append_assoc]
          refine h1.trans ?_
          simp only [pushFront, Option.map_some, cleanUTF8Aux, hl]
          rfl
        | succ k =>
          simp only [hl] at hf ⊢
          have hd : (r.drop k).length ≤ m := by rw [List.length_drop]; omega
          obtain ⟨hp, hkl⟩ := utf8Len_take hl (quoteAux m (r.drop k) ++ 34 :: rest)
          have hclean : cleanUTF8Aux (m + 1) (a :: r) = a :: (r.take k ++ cleanUTF8Aux m (r.drop k)) := by
            simp only [cleanUTF8Aux, hl]
          rw [hclean]
          have esc : ∀ (d : UInt8) (u : Nat), getu4 (50 :: 48 :: 50 :: d :: (quoteAux m (r.drop k) ++ 34 :: rest)) =
              some (u, quoteAux m (r.drop k) ++ 34 :: rest) → ¬ (0xD800 ≤ u ∧ u < 0xE000) → encodeRune u = a :: r.take k →
              (quoteAux m (r.drop k)).length < f →
              parseStr (f + 1) (92 :: 117 :: 50 :: 48 :: 50 :: d :: (quoteAux m (r.drop k) ++ 34 :: rest)) =
                some (a :: (r.take k ++ cleanUTF8Aux m (r.drop k)), rest) := by
            intro d u hg hu he hf
            rw [parseStr_unicode f 50 48 50 d _ u hg hu, ih _ f rest hd hf, he]
            simp [pushFront]
          split
          · rename_i he
            rw [if_pos he, List.length_append] at hf
            exact esc 56 0x2028 (by simp only [getu4, show hexVal 50 = some 2 by decide, show hexVal 48 = some 0 by decide, show hexVal 56 = some 8 by decide])
              (by omega) (by rw [he]; decide) (by simp only [List.length_cons, List.length_nil] at hf; omega)
          · rename_i he'
            rw [if_neg he'] at hf
            split
            · rename_i he
              rw [if_pos he, List.length_append] at hf
              exact esc 57 0x2029 (by simp only [getu4, show hexVal 50 = some 2 by decide, show hexVal 48 = some 0 by decide, show hexVal 57 = some 9 by decide])
                (by omega) (by rw [he]; decide) (by simp only [List.length_cons, List.length_nil] at hf; omega)
            · rename_i he
              rw [if_neg he] at hf
              have h34 : a ≠ 34 := by rintro rfl; exact ha (by decide)
              have h92 : a ≠ 92 := by rintro rfl; exact ha (by decide)
              simp only [List.length_cons, List.length_append] at hf
              rw [List.cons_append, List.append_assoc, parseStr_plain f a _ h34 h92 (by omega) k hp]
              have e1 : (r.take k ++ (quoteAux m (r.drop k) ++ 34 :: rest)).take k = r.take k := by
                rw [List.take_append_of_le_length (by rw [List.length_take]; omega), List.take_take, Nat.min_self]
              have e2 : (r.take k ++ (quoteAux m (r.drop k) ++ 34 :: rest)).drop k = quoteAux m (r.drop k) ++ 34 :: rest := by
                rw [List.drop_append]
                simp [List.length_take, Nat.min_eq_left hkl]
              rw [e1, e2, ih _ f rest hd (by omega)]
              simp [pushFront]

theorem parseStr_quote (s rest : Bytes) :
    parseStr ((quoteAux s.length s ++ 34 :: rest).length + 1) (quoteAux s.length s ++ 34 :: rest) = some (cleanUTF8 s, rest) :=
  parseStr_quoteAux s.length s _ rest (Nat.le_refl _) (by rw [List.length_append]; omega)

/-! ## Numbers -/

/-- Nothing that could continue a number. -/
def Ends (rest : Bytes) : Prop := ∀ c r, rest = c :: r → isDigitByte c = false ∧ c ≠ 46 ∧ c ≠ 101 ∧ c ≠ 69

theorem Ends.nil : Ends [] := by intro c r h; cases h

theorem digits_append {a rest : Bytes} (ha : ∀ c ∈ a, isDigitByte c = true) (hr : Ends rest) : digits (a ++ rest) = (a, rest) := by
  unfold digits
  rw [List.takeWhile_append_of_pos ha, List.dropWhile_append_of_pos ha]
  cases rest with
  | nil => simp
  | cons c r =>
    have := (hr c r rfl).1
    simp [List.takeWhile_cons, List.dropWhile_cons, this]

theorem digitByte_isDigit (n : Nat) : isDigitByte (digitByte n) = true := by
  have := digitByte_toNat n
  simp only [isDigitByte, decide_eq_true_eq]
  omega

theorem formatDecAux_digits (fuel n : Nat) : ∀ c ∈ formatDecAux fuel n, isDigitByte c = true := by
  induction fuel generalizing n with
  | zero => intro c hc; cases hc
  | succ fuel ih =>
    intro c hc
    simp only [formatDecAux] at hc
    split at hc
    · rw [List.mem_singleton] at hc; rw [hc]; exact digitByte_isDigit n
    · rcases List.mem_append.1 hc with hc | hc
      · exact ih _ c hc
      · rw [List.mem_singleton] at hc; rw [hc]; exact digitByte_isDigit n

theorem formatDecAux_pos (fuel n : Nat) (h : n < fuel) (hn : n ≠ 0) : ∃ c s, formatDecAux fuel n = c :: s ∧ c ≠ 48 := by
  induction fuel generalizing n with
  | zero => omega
  | succ fuel ih =>
    simp only [formatDecAux]
    split
    · rename_i h10
      refine ⟨_, [], rfl, ?_⟩
      intro e
      have := digitByte_toNat n
      rw [e] at this
      have h48 : (48 : UInt8).toNat = 48 := rfl
      omega
    · obtain ⟨c, s, h1, h2⟩ := ih (n / 10) (by omega) (by omega)
      exact ⟨c, s ++ [digitByte n], by rw [h1]; rfl, h2⟩

theorem parseFrac_ends {rest : Bytes} (h : Ends rest) : parseFrac rest = some (false, rest) := by
  unfold parseFrac
  split
  · exact absurd rfl (h _ _ rfl).2.1
  · rfl

theorem parseExp_ends {rest : Bytes} (h : Ends rest) : parseExp rest = some (false, rest) := by
  unfold parseExp
  split
  · rename_i c r
    have := h c r rfl
    rw [if_neg (by simp [this.2.2.1, this.2.2.2])]
  · rfl

theorem parseNumber_format (neg : Bool) (n : Nat) {rest : Bytes} (h : Ends rest) :
    parseNumber neg (formatDec n ++ rest) =
      some (if neg then (if n = 0 then .num none else .num (some (-(n : Int)))) else .num (some (n : Int)), rest) := by
  have hp : parseDigits 0 (formatDec n) = some n := parseDigits_formatDecAux _ _ (by omega)
  have key : ∀ ip : Bytes × Bytes, ip = (formatDec n, rest) → (if ip.1 = [] then none
      else
        match parseFrac ip.2 with
        | none => none
        | some (f, r) =>
          match parseExp r with
          | none => none
          | some (e, r) =>
            if f || e then some (JVal.num none, r)
            else
              match parseDigits 0 ip.1 with
              | none => none
              | some n =>
                if neg then (if n = 0 then some (.num none, r) else some (.num (some (-(n : Int))), r))
                else some (.num (some n), r)) =
      some (if neg then (if n = 0 then .num none else .num (some (-(n : Int)))) else .num (some (n : Int)), rest) := by
    rintro ip rfl
    simp only [formatDec_ne_nil, if_false, parseFrac_ends h, parseExp_ends h, hp, Bool.or_self, Bool.false_eq_true]
    cases neg
    · simp
    · by_cases h0 : n = 0 <;> simp [h0]
  unfold parseNumber
  apply key
  by_cases h0 : n = 0
  · subst h0
    rfl
  · obtain ⟨c, s, h1, h2⟩ := formatDecAux_pos (n + 1) n (by omega) h0
    have h1' : formatDec n = c :: s := h1
    have hd : digits (formatDec n ++ rest) = (formatDec n, rest) := digits_append (formatDecAux_digits _ _) h
    rw [← hd, h1', List.cons_append]
    split
    · rename_i heq
      simp only [List.cons.injEq] at heq
      exact absurd heq.1 h2
    · rfl

/-! ## Values -/

theorem formatDec_head (n : Nat) : ∃ c s, formatDec n = c :: s ∧ isDigitByte c = true := by
  obtain ⟨m, s, h⟩ := formatDecAux_head (n + 1) n (by omega)
  exact ⟨_, s, h, digitByte_isDigit m⟩

/-- Facts about the first byte of a value. -/
def Starts (c : UInt8) : Prop := isWS c = false ∧ c ≠ 93 ∧ c ≠ 125

theorem starts_digit {c : UInt8} (h : isDigitByte c = true) : Starts c ∧ c ≠ 34 ∧ c ≠ 91 ∧ c ≠ 123 ∧ c ≠ 45 := by
  unfold Starts
  revert h
  exact byte_cases (fun c => isDigitByte c = true → (isWS c = false ∧ c ≠ 93 ∧ c ≠ 125) ∧ c ≠ 34 ∧ c ≠ 91 ∧ c ≠ 123 ∧ c ≠ 45)
    (by decide) c

theorem print_starts (L : Layout) (d : Nat) (v : JVal) : ∃ c s, v.print L d = c :: s ∧ Starts c := by
  cases v with
  | null => exact ⟨_, _, rfl, by unfold Starts; decide⟩
  | bool b => cases b <;> exact ⟨_, _, rfl, by unfold Starts; decide⟩
  | num i =>
    cases i with
    | none => exact ⟨_, _, rfl, by unfold Starts; decide⟩
    | some i =>
      cases i with
      | ofNat n =>
        obtain ⟨c, s, h1, h2⟩ := formatDec_head n
        exact ⟨c, s, h1, (starts_digit h2).1⟩
      | negSucc n => exact ⟨45, _, rfl, by unfold Starts; decide⟩
  | str s => exact ⟨_, _, rfl, by unfold Starts; decide⟩
  | arr l => cases l <;> exact ⟨_, _, by rw [JVal.print], by unfold Starts; decide⟩
  | obj l =>
    cases l with
    | nil => exact ⟨_, _, by rw [JVal.print], by unfold Starts; decide⟩
    | cons m l => obtain ⟨k, v⟩ := m; exact ⟨_, _, by rw [JVal.print], by unfold Starts; decide⟩

theorem ends_of {c : UInt8} (h : isWS c = true ∨ c = 44 ∨ c = 93 ∨ c = 125) (r : Bytes) : Ends (c :: r) := by
  intro c' r' e
  simp only [List.cons.injEq] at e
  obtain ⟨rfl, -⟩ := e
  revert h
  exact byte_cases (fun c => (isWS c = true ∨ c = 44 ∨ c = 93 ∨ c = 125) → isDigitByte c = false ∧ c ≠ 46 ∧ c ≠ 101 ∧ c ≠ 69)
    (by decide) c

theorem ends_blank {w : Bytes} (hw : Blank w) {c : UInt8} (h : c = 44 ∨ c = 93 ∨ c = 125) (r : Bytes) : Ends (w ++ c :: r) := by
  cases w with
  | nil => exact ends_of (.inr h) r
  | cons x w => exact ends_of (.inl ((isWS_iff x).2 (hw x (List.mem_cons_self ..)))) _

theorem printElems_ends {L : Layout} (hL : L.Blank) (d : Nat) (vs : List JVal) (rest : Bytes) :
    Ends (printElems L d vs ++ rest) := by
  cases vs with
  | nil =>
    rw [printElems, List.append_assoc]
    exact ends_blank (hL.1 d) (.inr (.inl rfl)) _
  | cons v vs =>
    rw [printElems, List.cons_append]
    exact ends_of (.inr (.inl rfl)) _

theorem printMembers_ends {L : Layout} (hL : L.Blank) (d : Nat) (ms : List (Bytes × JVal)) (rest : Bytes) :
    Ends (printMembers L d ms ++ rest) := by
  cases ms with
  | nil =>
    rw [printMembers, List.append_assoc]
    exact ends_blank (hL.1 d) (.inr (.inr rfl)) _
  | cons m ms =>
    obtain ⟨k, v⟩ := m
    rw [printMembers, List.cons_append]
    exact ends_of (.inr (.inl rfl)) _

mutual
/-- A printed value is read back, after any white space and before anything that cannot continue a number. -/
theorem parseVal_print {L : Layout} (hL : L.Blank) (v : JVal) (d n : Nat) (w rest : Bytes) (hw : Blank w)
    (hn : (v.print L d).length ≤ n) (hr : Ends rest) :
    parseVal n (w ++ (v.print L d ++ rest)) = some (v.clean, rest) := by
  obtain ⟨c, s, hc, hs⟩ := print_starts L d v
  cases n with
  | zero => rw [hc] at hn; simp at hn
  | succ n =>
  have hsk : skipWS (w ++ (v.print L d ++ rest)) = v.print L d ++ rest := by
    rw [hc, List.cons_append, skipWS_blank_cons hw hs.1]
  simp only [parseVal, hsk]
  clear hsk hc hs
  match v, hn with
  | .null, _ => rfl
  | .bool true, _ => rfl
  | .bool false, _ => rfl
  | .num none, _ =>
    have hd : digits (53 :: rest) = ([53], rest) := digits_append (a := [53]) (by decide) hr
    simp only [JVal.print, List.cons_append, List.nil_append, show ¬ (48 : UInt8) = 34 by decide, show ¬ (48 : UInt8) = 91 by decide,
      show ¬ (48 : UInt8) = 123 by decide, show ¬ (48 : UInt8) = 45 by decide, if_false, show isDigitByte 48 = true by decide, if_true,
      parseNumber, parseFrac, hd, JVal.clean]
    simp [parseExp_ends hr]
  | .num (some i), hn =>
    cases i with
    | ofNat k =>
      obtain ⟨c, s, h1, h2⟩ := formatDec_head k
      obtain ⟨-, e1, e2, e3, e4⟩ := starts_digit h2
      have hp := parseNumber_format false k hr
      have : JVal.print L d (.num (some (Int.ofNat k))) = formatDec k := by simp [JVal.print, formatInt]
      rw [this]
      rw [h1, List.cons_append] at hp ⊢
      simp only [e1, e2, e3, e4, if_false, h2, if_true, hp]
      rfl
    | negSucc k =>
      have hp := parseNumber_format true (k + 1) hr
      have : JVal.print L d (.num (some (Int.negSucc k))) = 45 :: formatDec (k + 1) := by simp [JVal.print, formatInt]
      rw [this, List.cons_append]
      simp only [show ¬ (45 : UInt8) = 34 by decide, show ¬ (45 : UInt8) = 91 by decide,
        show ¬ (45 : UInt8) = 123 by decide, if_false, if_true, hp, JVal.clean, Nat.succ_ne_zero]
      rfl
  | .str s, hn =>
    have : JVal.print L d (.str s) ++ rest = 34 :: (quoteAux s.length s ++ 34 :: rest) := by
      simp [JVal.print, quoteString]
    rw [this]
    simp only [if_true, parseStr_quote, JVal.clean]
  | .arr [], _ =>
    simp only [JVal.print, List.cons_append, List.nil_append, show ¬ (91 : UInt8) = 34 by decide, if_false, if_true,
      skipWS_cons (show isWS 93 = false by decide), JVal.clean, JVal.cleanList]
  | .arr (x :: xs), hn =>
    have e : JVal.print L d (.arr (x :: xs)) ++ rest =
        91 :: (L.nl (d + 1) ++ (x.print L (d + 1) ++ (printElems L d xs ++ rest))) := by simp [JVal.print]
    obtain ⟨c, s, hc, hs⟩ := print_starts L (d + 1) x
    have hsk : skipWS (L.nl (d + 1) ++ (x.print L (d + 1) ++ (printElems L d xs ++ rest))) =
        x.print L (d + 1) ++ (printElems L d xs ++ rest) := by
      rw [hc, List.cons_append, skipWS_blank_cons (hL.1 _) hs.1]
    rw [e]
    have hx := parseElems_print hL x xs d n [] rest Blank.nil (by
      simp only [JVal.print, List.length_cons, List.length_append] at hn
      simp only [List.length_append]
      omega)
    simp only [show ¬ (91 : UInt8) = 34 by decide, if_false, if_true, hsk]
    rw [List.nil_append] at hx
    split
    · rename_i heq
      rw [hc, List.cons_append] at heq
      simp only [List.cons.injEq] at heq
      exact absurd heq.1 hs.2.1
    · rw [hx]
      simp only [JVal.clean, JVal.cleanList]
  | .obj [], _ =>
    simp only [JVal.print, List.cons_append, List.nil_append, show ¬ (123 : UInt8) = 34 by decide, show ¬ (123 : UInt8) = 91 by decide,
      if_false, if_true, skipWS_cons (show isWS 125 = false by decide), JVal.clean, JVal.cleanMembers]
  | .obj ((k, x) :: ms), hn =>
    have e : JVal.print L d (.obj ((k, x) :: ms)) ++ rest =
        123 :: (L.nl (d + 1) ++ (quoteString k ++ (L.colon ++ (x.print L (d + 1) ++ (printMembers L d ms ++ rest))))) := by
      simp [JVal.print]
    have hsk : skipWS (L.nl (d + 1) ++ (quoteString k ++ (L.colon ++ (x.print L (d + 1) ++ (printMembers L d ms ++ rest))))) =
        quoteString k ++ (L.colon ++ (x.print L (d + 1) ++ (printMembers L d ms ++ rest))) := by
      rw [quoteString, List.cons_append, skipWS_blank_cons (hL.1 _) (by decide)]
    rw [e]
    have hx := parseMembers_print hL k x ms d n [] rest Blank.nil (by
      simp only [JVal.print, List.length_cons, List.length_append] at hn
      simp only [List.length_append]
      omega)
    simp only [show ¬ (123 : UInt8) = 34 by decide, show ¬ (123 : UInt8) = 91 by decide, if_false, if_true, hsk]
    rw [List.nil_append] at hx
    split
    · rename_i heq
      rw [quoteString, List.cons_append] at heq
      simp only [List.cons.injEq] at heq
      exact absurd heq.1 (by decide)
    · rw [hx]
      simp only [JVal.clean, JVal.cleanMembers]
termination_by n
theorem parseElems_print {L : Layout} (hL : L.Blank) (x : JVal) (xs : List JVal) (d n : Nat) (w rest : Bytes) (hw : Blank w)
    (hn : (x.print L (d + 1) ++ printElems L d xs).length ≤ n) :
    parseElems n (w ++ (x.print L (d + 1) ++ (printElems L d xs ++ rest))) = some (x.clean :: JVal.cleanList xs, rest) := by
  cases n with
  | zero =>
    obtain ⟨c, s, hc, hs⟩ := print_starts L (d + 1) x
    rw [hc] at hn; simp at hn
  | succ n =>
    have hpos : 1 ≤ (printElems L d xs).length := by cases xs <;> simp [printElems]
    rw [List.length_append] at hn
    have hx := parseVal_print hL x (d + 1) n w (printElems L d xs ++ rest) hw (by omega) (printElems_ends hL d xs rest)
    simp only [parseElems, hx]
    match xs, hn, hpos with
    | [], _, _ =>
      simp only [printElems, List.append_assoc, List.cons_append, List.nil_append, skipWS_blank_cons (hL.1 d) (show isWS 93 = false by decide),
        JVal.cleanList]
    | y :: ys, hn, _ =>
      obtain ⟨c, s, hc, hs⟩ := print_starts L (d + 1) x
      have hx1 : 1 ≤ (x.print L (d + 1)).length := by rw [hc]; simp
      have e : printElems L d (y :: ys) ++ rest = 44 :: (L.nl (d + 1) ++ (y.print L (d + 1) ++ (printElems L d ys ++ rest))) := by
        simp [printElems]
      have hy := parseElems_print hL y ys d n (L.nl (d + 1)) rest (hL.1 _) (by
        simp only [printElems, List.length_cons, List.length_append] at hn
        simp only [List.length_append]
        omega)
      rw [e, skipWS_cons (by decide)]
      simp only [hy, JVal.cleanList]
termination_by n
theorem parseMembers_print {L : Layout} (hL : L.Blank) (k : Bytes) (x : JVal) (ms : List (Bytes × JVal)) (d n : Nat) (w rest : Bytes)
    (hw : Blank w) (hn : (quoteString k ++ L.colon ++ x.print L (d + 1) ++ printMembers L d ms).length ≤ n) :
    parseMembers n (w ++ (quoteString k ++ (L.colon ++ (x.print L (d + 1) ++ (printMembers L d ms ++ rest))))) =
      some ((cleanUTF8 k, x.clean) :: JVal.cleanMembers ms, rest) := by
  cases n with
  | zero => simp [quoteString] at hn
  | succ n =>
    obtain ⟨cw, hcol, hcw⟩ := hL.2
    have hpos : 1 ≤ (printMembers L d ms).length := by
      cases ms with
      | nil => simp [printMembers]
      | cons m ms => obtain ⟨k', v'⟩ := m; simp [printMembers]
    simp only [List.length_append] at hn
    have e0 : ∀ t : Bytes, skipWS (w ++ (quoteString k ++ t)) = 34 :: (quoteAux k.length k ++ 34 :: t) := by
      intro t
      have : quoteString k ++ t = 34 :: (quoteAux k.length k ++ 34 :: t) := by simp [quoteString]
      rw [this, skipWS_blank_cons hw (by decide)]
    have hx := parseVal_print hL x (d + 1) n cw (printMembers L d ms ++ rest) hcw (by omega) (printMembers_ends hL d ms rest)
    simp only [parseMembers, e0, parseStr_quote, hcol, List.cons_append, skipWS_cons (show isWS 58 = false by decide), hx]
    match ms, hn, hpos with
    | [], _, _ =>
      simp only [printMembers, List.append_assoc, List.cons_append, List.nil_append, skipWS_blank_cons (hL.1 d) (show isWS 125 = false by decide),
        JVal.cleanMembers]
    | (k', y) :: ms', hn, _ =>
      have e : printMembers L d ((k', y) :: ms') ++ rest =
          44 :: (L.nl (d + 1) ++ (quoteString k' ++ (L.colon ++ (y.print L (d + 1) ++ (printMembers L d ms' ++ rest))))) := by
        simp [printMembers]
      have hq : 1 ≤ (quoteString k).length := by simp [quoteString]
      have hy := parseMembers_print hL k' y ms' d n (L.nl (d + 1)) rest (hL.1 _) (by
        simp only [printMembers, List.length_cons, List.length_append] at hn
        simp only [List.length_append]
        omega)
      rw [e, skipWS_cons (by decide)]
      simp only [hy, JVal.cleanMembers]
termination_by n
end

theorem Layout.compact_blank : Layout.compact.Blank := ⟨fun _ => Blank.nil, [], rfl, Blank.nil⟩

theorem Layout.indent_blank : Layout.indent.Blank := by
  refine ⟨fun d => ?_, [32], rfl, by unfold Appdash.Blank; decide⟩
  intro c hc
  simp only [Layout.indent, List.mem_cons, List.mem_replicate] at hc
  rcases hc with rfl | ⟨-, rfl⟩ <;> decide

/-- What is printed is read as the first value of any text that goes on with something that cannot continue a number. -/
theorem parseFirst_print {L : Layout} (hL : L.Blank) (v : JVal) (rest : Bytes) (hr : Ends rest) :
    parseFirst (v.print L 0 ++ rest) = some v.clean := by
  have := parseVal_print hL v 0 ((v.print L 0 ++ rest).length + 1) [] rest Blank.nil (by rw [List.length_append]; omega) hr
  rw [List.nil_append] at this
  rw [parseFirst, this]
  rfl

/-- What is printed is read as a whole. -/
theorem parseJSON_print {L : Layout} (hL : L.Blank) (v : JVal) : parseJSON (v.print L 0) = some v.clean := by
  have := parseVal_print hL v 0 ((v.print L 0).length + 1) [] [] Blank.nil (by omega) Ends.nil
  rw [List.nil_append, List.append_nil] at this
  rw [parseJSON, this]
  rfl

/-! ## Traces -/

theorem b64Char_ascii (v : Nat) (h : v < 64) : (b64Char v).toNat < 128 :=
  (show ∀ v : Fin 64, (b64Char v.val).toNat < 128 by decide) ⟨v, h⟩

theorem b64Encode_ascii : ∀ s : Bytes, ∀ c ∈ b64Encode s, c.toNat < 128
  | [] => by simp [b64Encode]
  | [a] => by
    intro c hc
    have ha := a.toNat_lt
    simp only [b64Encode, List.mem_cons, List.not_mem_nil, or_false] at hc
    rcases hc with rfl | rfl | rfl | rfl
    · exact b64Char_ascii _ (by omega)
    · exact b64Char_ascii _ (by omega)
    all_goals decide
  | [a, b] => by
    intro c hc
    have ha := a.toNat_lt
    have hb := b.toNat_lt
    simp only [b64Encode, List.mem_cons, List.not_mem_nil, or_false] at hc
    rcases hc with rfl | rfl | rfl | rfl
    · exact b64Char_ascii _ (by omega)
    · exact b64Char_ascii _ (by omega)
    · exact b64Char_ascii _ (by omega)
    · decide
  | a :: b :: c :: rest => by
    intro x hx
    have ha := a.toNat_lt
    have hb := b.toNat_lt
    have hc := c.toNat_lt
    simp only [b64Encode, List.mem_cons] at hx
    rcases hx with rfl | rfl | rfl | rfl | hx
    · exact b64Char_ascii _ (by omega)
    · exact b64Char_ascii _ (by omega)
    · exact b64Char_ascii _ (by omega)
    · exact b64Char_ascii _ (by omega)
    · exact b64Encode_ascii rest x hx

theorem toText_ascii (id : ID) : ∀ c ∈ id.toText, c.toNat < 128 := by
  intro c hc
  have := toText_lower id c hc
  unfold Spec.IsLowerHex at this
  omega

theorem clean_spanID (id : SpanID) : (encodeSpanID id).clean = encodeSpanID id := by
  simp only [encodeSpanID, JVal.clean, JVal.cleanMembers, ID.marshalJSON, JVal.ofScalar, cleanUTF8_ascii _ (toText_ascii _)]
  rfl

theorem clean_annotation (a : Annotation) : (annotationJSON a).clean = encodeAnnotation a := by
  obtain ⟨k, v⟩ := a
  cases v with
  | none => simp only [annotationJSON, encodeAnnotation, JVal.clean, JVal.cleanMembers]; rfl
  | some v =>
    simp only [annotationJSON, encodeAnnotation, JVal.clean, JVal.cleanMembers, cleanUTF8_ascii _ (b64Encode_ascii v)]
    rfl

theorem clean_slice (n : Bool) (l : List JVal) : (encodeSlice n l).clean = encodeSlice n (JVal.cleanList l) := by
  cases n <;> cases l <;> simp [encodeSlice, JVal.clean, JVal.cleanList]

theorem clean_annotations (l : List Annotation) : JVal.cleanList (l.map annotationJSON) = l.map encodeAnnotation := by
  induction l with
  | nil => rfl
  | cons a l ih => simp only [List.map_cons, JVal.cleanList, clean_annotation, ih]

mutual
theorem clean_trace (nils : SpanID → Bool × Bool) (tr : Tree) : (traceJSON nils tr).clean = encodeTrace nils tr := by
  cases tr with
  | node s ts =>
    simp only [traceJSON, encodeTrace, JVal.clean, JVal.cleanMembers, clean_spanID, clean_slice, clean_annotations,
      clean_traces nils ts]
    rfl
theorem clean_traces (nils : SpanID → Bool × Bool) (ts : List Tree) : JVal.cleanList (tracesJSON nils ts) = encodeTraces nils ts := by
  cases ts with
  | nil => rfl
  | cons t ts => simp only [tracesJSON, encodeTraces, JVal.cleanList, clean_trace nils t, clean_traces nils ts]
end

theorem parse_exportText (nils : SpanID → Bool × Bool) (tr : Tree) : parseJSON (exportText nils tr) = some (exportTrace nils tr) := by
  rw [exportText, parseJSON_print Layout.indent_blank]
  simp only [JVal.clean, JVal.cleanList, clean_trace, exportTrace]

theorem parse_linkText (nils : SpanID → Bool × Bool) (tr : Tree) : parseFirst (linkText nils tr) = some (encodeTrace nils tr) := by
  rw [linkText, parseFirst_print Layout.compact_blank _ _ (ends_of (.inl (by decide)) _), clean_trace]

end Appdash
