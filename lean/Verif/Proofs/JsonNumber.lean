import Verif.Proofs.JsonText

/-! # The texts that are read as numbers -/

namespace Appdash

theorem isDigitByte_iff (c : UInt8) : isDigitByte c = true ↔ 48 ≤ c.toNat ∧ c.toNat ≤ 57 := by simp [isDigitByte]

theorem decimals_iff (ds : Bytes) : Decimals ds ↔ ∀ c ∈ ds, isDigitByte c = true :=
  forall_congr' fun c => forall_congr' fun _ => (isDigitByte_iff c).symm

/-- The next byte is not a digit. -/
def Stops (rest : Bytes) : Prop := ∀ c r, rest = c :: r → isDigitByte c = false

theorem digits_stops {a rest : Bytes} (ha : Decimals a) (hr : Stops rest) : digits (a ++ rest) = (a, rest) := by
  rw [decimals_iff] at ha
  unfold digits
  rw [List.takeWhile_append_of_pos ha, List.dropWhile_append_of_pos ha]
  cases rest with
  | nil => simp
  | cons c r => simp [List.takeWhile_cons, List.dropWhile_cons, hr c r rfl]

theorem digits_split (s : Bytes) : s = (digits s).1 ++ (digits s).2 ∧ Decimals (digits s).1 := by
  refine ⟨(List.takeWhile_append_dropWhile).symm, (decimals_iff _).2 fun c hc => ?_⟩
  exact List.all_eq_true.1 List.all_takeWhile c hc

theorem parseDigits_value (ds : Bytes) : ∀ acc, Decimals ds →
    parseDigits acc ds = some (ds.foldl (fun n c => n * 10 + (c.toNat - 48)) acc) := by
  induction ds with
  | nil => intro acc _; rfl
  | cons c ds ih =>
    intro acc h
    have hc := h c (by simp)
    have : digitVal? c = some (c.toNat - 48) := by simp [digitVal?, hc]
    simp only [parseDigits, this, List.foldl_cons]
    exact ih _ fun x hx => h x (by simp [hx])

theorem decimalValue_pos {d : UInt8} {ds : Bytes} (hd : d ≠ 48) (h : Decimals (d :: ds)) : decimalValue (d :: ds) ≠ 0 := by
  have h1 := h d (by simp)
  have h2 : d.toNat ≠ 48 := fun e => hd (UInt8.toNat_inj.1 e)
  have key : ∀ (l : Bytes) (a : Nat), a ≠ 0 → l.foldl (fun n c => n * 10 + (c.toNat - 48)) a ≠ 0 := by
    intro l
    induction l with
    | nil => intro a ha; exact ha
    | cons c l ih => intro a ha; exact ih (a * 10 + (c.toNat - 48)) (by omega)
  exact key ds (0 * 10 + (d.toNat - 48)) (by omega)

/-! ## The parts -/

/-- A fraction, possibly absent. -/
def FracText (frac : Bytes) : Prop := frac = [] ∨ ∃ ds, frac = 46 :: ds ∧ ds ≠ [] ∧ Decimals ds

/-- An exponent, possibly absent. -/
def ExpText (exp : Bytes) : Prop :=
  exp = [] ∨ ∃ e s ds, exp = e :: (s ++ ds) ∧ (e = 101 ∨ e = 69) ∧ (s = [] ∨ s = b!"+" ∨ s = b!"-") ∧ ds ≠ [] ∧ Decimals ds

theorem parseFrac_sound {s r : Bytes} {f : Bool} (h : parseFrac s = some (f, r)) :
    ∃ frac, s = frac ++ r ∧ FracText frac ∧ f = decide (frac ≠ []) := by
  unfold parseFrac at h
  split at h
  · rename_i r'
    split at h
    · cases h
    · rename_i hne
      cases h
      exact ⟨46 :: (digits r').1, by rw [List.cons_append, ← (digits_split r').1], .inr ⟨_, rfl, hne, (digits_split r').2⟩, by simp⟩
  · cases h
    exact ⟨[], rfl, .inl rfl, by simp⟩

theorem parseExp_sound {s r : Bytes} {f : Bool} (h : parseExp s = some (f, r)) :
    ∃ exp, s = exp ++ r ∧ ExpText exp ∧ f = decide (exp ≠ []) := by
  unfold parseExp at h
  split at h
  · rename_i c r'
    split at h
    · rename_i hc
      have key : ∀ sg r2, r' = sg ++ r2 → (sg = [] ∨ sg = b!"+" ∨ sg = b!"-") →
          (if (digits r2).1 = [] then none else some (true, (digits r2).2)) = some (f, r) →
          ∃ exp, c :: r' = exp ++ r ∧ ExpText exp ∧ f = decide (exp ≠ []) := by
        intro sg r2 h1 h2 h3
        split at h3
        · cases h3
        · rename_i hne
          cases h3
          refine ⟨c :: (sg ++ (digits r2).1), ?_, .inr ⟨c, sg, _, rfl, hc, h2, hne, (digits_split r2).2⟩, by simp⟩
          rw [List.cons_append, List.append_assoc, ← (digits_split r2).1, h1]
      dsimp only at h
      split at h
      · rename_i d r2
        split at h
        · rename_i hd
          refine key [d] r2 rfl ?_ h
          rcases hd with rfl | rfl
          · exact .inr (.inl rfl)
          · exact .inr (.inr rfl)
        · exact key [] (d :: r2) rfl (.inl rfl) h
      · exact key [] [] rfl (.inl rfl) h
    · cases h
      exact ⟨[], rfl, .inl rfl, by simp⟩
  · cases h
    exact ⟨[], rfl, .inl rfl, by simp⟩

theorem parseFrac_text {frac rest : Bytes} (h : FracText frac) (hs : Stops rest) (hd : ∀ r, rest ≠ 46 :: r) :
    parseFrac (frac ++ rest) = some (decide (frac ≠ []), rest) := by
  rcases h with rfl | ⟨ds, rfl, h1, h2⟩
  · rw [List.nil_append]
    unfold parseFrac
    split
    · exact absurd rfl (hd _)
    · simp
  · rw [List.cons_append, parseFrac, digits_stops h2 hs, if_neg h1]
    simp

theorem parseExp_text {exp rest : Bytes} (h : ExpText exp) (he : Ends rest) :
    parseExp (exp ++ rest) = some (decide (exp ≠ []), rest) := by
  rcases h with rfl | ⟨e, s, ds, rfl, h0, hs, h1, h2⟩
  · exact parseExp_ends he
  · have hst : Stops rest := fun c r hc => (he c r hc).1
    obtain ⟨d, ds', rfl⟩ := List.exists_cons_of_ne_nil h1
    have hd := h2 d (by simp)
    have hd43 : ¬ (d = 43 ∨ d = 45) := by
      rintro (rfl | rfl)
      · exact absurd hd.1 (by decide)
      · exact absurd hd.1 (by decide)
    have hdig := digits_stops h2 hst
    rw [List.cons_append] at hdig
    rcases hs with rfl | rfl | rfl
    · simp only [List.cons_append, List.nil_append, parseExp, h0, if_true, hd43, if_false, hdig]
      simp
    · simp only [List.cons_append, List.nil_append, parseExp, h0, if_true, true_or, hdig]
      simp
    · simp only [List.cons_append, List.nil_append, parseExp, h0, if_true, or_true, hdig]
      simp

/-! ## Numbers -/

/-- The digits before the fraction. -/
def IntText (int : Bytes) : Prop := int = b!"0" ∨ ∃ d ds, int = d :: ds ∧ d ≠ 48 ∧ Decimals int

theorem intText_decimals {int : Bytes} (h : IntText int) : Decimals int ∧ int ≠ [] := by
  rcases h with rfl | ⟨d, ds, rfl, -, h⟩
  · exact ⟨by intro c hc; simp at hc; subst hc; decide, by decide⟩
  · exact ⟨h, by simp⟩

theorem intText_zero {int : Bytes} (h : IntText int) : decimalValue int = 0 ↔ int = b!"0" := by
  constructor
  · intro h0
    rcases h with rfl | ⟨d, ds, rfl, h1, h2⟩
    · rfl
    · exact absurd h0 (decimalValue_pos h1 h2)
  · rintro rfl; rfl

/-- The value of a number with the given parts. -/
def numValue (neg : Bool) (int frac exp : Bytes) : Option Int :=
  if frac = [] ∧ exp = [] ∧ ¬ (neg = true ∧ int = b!"0") then
    some (if neg = true then -(decimalValue int : Int) else (decimalValue int : Int)) else none

/-- What follows the digits is read as the spec says. -/
theorem number_tail (neg : Bool) {int frac exp : Bytes} (hi : IntText int) (r : Bytes) :
    (if decide (frac ≠ []) || decide (exp ≠ []) then some (JVal.num none, r)
     else
      match parseDigits 0 int with
      | none => none
      | some n =>
        if neg then (if n = 0 then some (.num none, r) else some (.num (some (-(n : Int))), r))
        else some (.num (some n), r)) = some (JVal.num (numValue neg int frac exp), r) := by
  have hv : parseDigits 0 int = some (decimalValue int) := parseDigits_value _ 0 (intText_decimals hi).1
  have hz := intText_zero hi
  unfold numValue
  rw [hv]
  by_cases hf : frac = []
  · by_cases he : exp = []
    · subst hf he
      cases neg
      · simp
      · by_cases h0 : decimalValue int = 0
        · simp [hz.1 h0]
          rfl
        · have : ¬ int = b!"0" := fun e => h0 (hz.2 e)
          simp [h0, this]
    · simp [he]
  · simp [hf]

theorem parseNumber_sound {neg : Bool} {s r : Bytes} {v : JVal} (h : parseNumber neg s = some (v, r)) :
    ∃ int frac exp, s = int ++ (frac ++ (exp ++ r)) ∧ IntText int ∧ FracText frac ∧ ExpText exp ∧
      v = .num (numValue neg int frac exp) := by
  unfold parseNumber at h
  have key : ∀ ip : Bytes × Bytes, s = ip.1 ++ ip.2 → (ip.1 ≠ [] → IntText ip.1) → (if ip.1 = [] then none
      else
        match parseFrac ip.2 with
        | none => none
        | some (f, r) =>
          match parseExp r with
          | none => none
          | some (e, r) =>
            if f || e then some (JVal.num none, r)
            else
              match parseDigits 0 ip.1 with
              | none => none
              | some n =>
                if neg then (if n = 0 then some (.num none, r) else some (.num (some (-(n : Int))), r))
                else some (.num (some n), r)) = some (v, r) →
      ∃ int frac exp, s = int ++ (frac ++ (exp ++ r)) ∧ IntText int ∧ FracText frac ∧ ExpText exp ∧
        v = .num (numValue neg int frac exp) := by
    intro ip h1 h2 h
    split at h
    · cases h
    · rename_i hne
      split at h
      · cases h
      · rename_i f r1 hf
        split at h
        · cases h
        · rename_i e r2 he
          obtain ⟨frac, g1, g2, g3⟩ := parseFrac_sound hf
          obtain ⟨exp, k1, k2, k3⟩ := parseExp_sound he
          rw [g3, k3, number_tail neg (h2 hne)] at h
          cases h
          exact ⟨ip.1, frac, exp, by rw [h1, g1, k1], h2 hne, g2, k2, rfl⟩
  refine key _ ?_ ?_ h
  · split
    · rfl
    · exact (digits_split s).1
  · split
    · intro _; exact .inl rfl
    · rename_i hn
      intro hne
      obtain ⟨d, ds, hd⟩ := List.exists_cons_of_ne_nil hne
      refine .inr ⟨d, ds, hd, ?_, (digits_split s).2⟩
      rintro rfl
      have := (digits_split s).1
      rw [hd] at this
      exact hn _ this

theorem parseNumber_text (neg : Bool) {int frac exp rest : Bytes} (hi : IntText int) (hf : FracText frac) (he : ExpText exp)
    (hr : Ends rest) :
    parseNumber neg (int ++ (frac ++ (exp ++ rest))) = some (.num (numValue neg int frac exp), rest) := by
  have hs1 : Stops (exp ++ rest) := by
    intro c r hc
    rcases he with rfl | ⟨e, s, ds, rfl, h0, -⟩
    · exact (hr c r hc).1
    · simp only [List.cons_append, List.cons.injEq] at hc
      rw [← hc.1]
      rcases h0 with rfl | rfl <;> decide
  have hs2 : ∀ r, exp ++ rest ≠ 46 :: r := by
    intro r hc
    rcases he with rfl | ⟨e, s, ds, rfl, h0, -⟩
    · exact (hr _ r hc).2.1 rfl
    · simp only [List.cons_append, List.cons.injEq] at hc
      rcases h0 with rfl | rfl
      · exact absurd hc.1 (by decide)
      · exact absurd hc.1 (by decide)
  have hs3 : Stops (frac ++ (exp ++ rest)) := by
    intro c r hc
    rcases hf with rfl | ⟨ds, rfl, -⟩
    · exact hs1 c r hc
    · simp only [List.cons_append, List.cons.injEq] at hc
      rw [← hc.1]
      decide
  have key : ∀ ip : Bytes × Bytes, ip = (int, frac ++ (exp ++ rest)) → (if ip.1 = [] then none
      else
        match parseFrac ip.2 with
        | none => none
        | some (f, r) =>
          match parseExp r with
          | none => none
          | some (e, r) =>
            if f || e then some (JVal.num none, r)
            else
              match parseDigits 0 ip.1 with
              | none => none
              | some n =>
                if neg then (if n = 0 then some (.num none, r) else some (.num (some (-(n : Int))), r))
                else some (.num (some n), r)) = some (.num (numValue neg int frac exp), rest) := by
    rintro ip rfl
    simp only [(intText_decimals hi).2, if_false, parseFrac_text hf hs1 hs2, parseExp_text he hr]
    exact number_tail neg hi rest
  unfold parseNumber
  apply key
  rcases hi with rfl | ⟨d, ds, rfl, h1, h2⟩
  · rfl
  · split
    · rename_i heq
      simp only [List.cons_append, List.cons.injEq] at heq
      exact absurd heq.1 h1
    · exact digits_stops h2 hs3

theorem numText_iff (t : Bytes) (v : Option Int) : NumText t v ↔
    ∃ neg int frac exp, t = (if neg = true then b!"-" else []) ++ (int ++ (frac ++ exp)) ∧ IntText int ∧ FracText frac ∧ ExpText exp ∧
      v = numValue neg int frac exp := by
  constructor
  · rintro ⟨sign, int, frac, exp, h1, h2, h3, h4, h5, h6⟩
    rcases h2 with rfl | rfl
    · exact ⟨false, int, frac, exp, h1, h3, h4, h5, by rw [h6]; unfold numValue; simp⟩
    · exact ⟨true, int, frac, exp, h1, h3, h4, h5, by rw [h6]; unfold numValue; simp⟩
  · rintro ⟨neg, int, frac, exp, h1, h3, h4, h5, h6⟩
    cases neg
    · exact ⟨[], int, frac, exp, h1, .inl rfl, h3, h4, h5, by rw [h6]; unfold numValue; simp⟩
    · exact ⟨b!"-", int, frac, exp, h1, .inr rfl, h3, h4, h5, by rw [h6]; unfold numValue; simp⟩

theorem numText_formatDec (n : Nat) : NumText (formatDec n) (some (n : Int)) := by
  have h := parseNumber_format false n Ends.nil
  obtain ⟨int, frac, exp, h1, h2, h3, h4, h5⟩ := parseNumber_sound h
  refine (numText_iff _ _).2 ⟨false, int, frac, exp, by simpa using h1, h2, h3, h4, ?_⟩
  simpa using h5

theorem numText_formatInt (i : Int) : NumText (formatInt i) (some i) := by
  cases i with
  | ofNat n => exact numText_formatDec n
  | negSucc n =>
    have h := parseNumber_format true (n + 1) Ends.nil
    obtain ⟨int, frac, exp, h1, h2, h3, h4, h5⟩ := parseNumber_sound h
    refine (numText_iff _ _).2 ⟨true, int, frac, exp, ?_, h2, h3, h4, ?_⟩
    · simp only [List.append_nil] at h1
      rw [formatInt, h1]
      rfl
    · simpa [Int.negSucc_eq] using h5

theorem numText_half : NumText b!"0.5" none :=
  ⟨[], b!"0", b!".5", [], rfl, .inl rfl, .inl rfl, .inr ⟨b!"5", rfl, by decide, by intro c hc; simp at hc; subst hc; decide⟩, .inl rfl, rfl⟩

end Appdash
