import Verif.Model.Span
import Verif.Proofs.ID

/-! # Helper lemmas for `span.go` -/

namespace Appdash

open Spec

theorem splitOn_ne_nil (sep : UInt8) (s : Bytes) : splitOn sep s ≠ [] := by
  induction s with
  | nil => simp [splitOn]
  | cons c s ih =>
    simp only [splitOn]
    split
    · simp
    · split <;> simp

/-- No separator: one part. -/
theorem splitOn_no_sep (sep : UInt8) (a : Bytes) (h : sep ∉ a) : splitOn sep a = [a] := by
  induction a with
  | nil => rfl
  | cons c a ih =>
    simp only [List.mem_cons, not_or] at h
    have : ¬ c = sep := fun e => h.1 e.symm
    simp [splitOn, this, ih h.2]

/-- A separator after a separator-free prefix splits it off. -/
theorem splitOn_append (sep : UInt8) (a s : Bytes) (h : sep ∉ a) :
    splitOn sep (a ++ sep :: s) = a :: splitOn sep s := by
  induction a with
  | nil => simp [splitOn]
  | cons c a ih =>
    simp only [List.mem_cons, not_or] at h
    have : ¬ c = sep := fun e => h.1 e.symm
    simp [splitOn, this, ih h.2]

/-- Splitting loses nothing: the first part, when there are more, is followed by a separator. -/
theorem splitOn_cons (sep : UInt8) (s p : Bytes) (ps : List Bytes) (h : splitOn sep s = p :: ps) :
    sep ∉ p ∧ ((ps = [] ∧ s = p) ∨ ∃ s', s = p ++ sep :: s' ∧ splitOn sep s' = ps) := by
  induction s generalizing p ps with
  | nil =>
    simp only [splitOn, List.cons.injEq] at h
    obtain ⟨rfl, rfl⟩ := h
    simp
  | cons c s ih =>
    simp only [splitOn] at h
    split at h
    · rename_i hc
      simp only [List.cons.injEq] at h
      obtain ⟨rfl, rfl⟩ := h
      subst hc
      refine ⟨by simp, Or.inr ⟨s, by simp, rfl⟩⟩
    · rename_i hc
      cases hs : splitOn sep s with
      | nil => exact absurd hs (splitOn_ne_nil sep s)
      | cons q qs =>
        rw [hs] at h
        simp only [List.cons.injEq] at h
        obtain ⟨rfl, rfl⟩ := h
        obtain ⟨h1, h2⟩ := ih q qs hs
        refine ⟨?_, ?_⟩
        · simp only [List.mem_cons, not_or]
          exact ⟨fun e => hc e.symm, h1⟩
        · rcases h2 with ⟨rfl, rfl⟩ | ⟨s', rfl, h3⟩
          · exact Or.inl ⟨rfl, rfl⟩
          · exact Or.inr ⟨s', by simp, h3⟩

theorem hexValue_mem {s : Bytes} {v : Nat} (h : hexValue s = some v) :
    ∀ c ∈ s, ∃ d, hexDigitValue c = some d := by
  induction s generalizing v with
  | nil => simp
  | cons c s ih =>
    obtain ⟨d, r, hd, hr, -⟩ := hexValue_cons_some.1 h
    intro x hx
    rcases List.mem_cons.1 hx with rfl | hx
    · exact ⟨d, hd⟩
    · exact ih hr x hx

theorem idNumeral_no_delim {s : Bytes} {v : Nat} (h : IDNumeral s v) : spanIDDelimiter ∉ s := by
  intro hm
  obtain ⟨d, hd⟩ := hexValue_mem h.2.1 _ hm
  have : hexDigitValue spanIDDelimiter = none := by decide
  rw [this] at hd
  simp at hd

theorem toText_numeral (id : ID) : IDNumeral id.toText id.toNat :=
  (parseID_ok _ _).1 (parseID_toText id)

/-- The exact language of `ParseSpanID`. -/
theorem parseSpanID_ok (s : Bytes) (id : SpanID) :
    parseSpanID s = .ok id ↔
      (∃ a b, s = a ++ spanIDDelimiter :: b ∧ IDNumeral a id.trace.toNat ∧ IDNumeral b id.span.toNat ∧
        id.parent = 0) ∨
      (∃ a b c, s = a ++ spanIDDelimiter :: (b ++ spanIDDelimiter :: c) ∧ IDNumeral a id.trace.toNat ∧
        IDNumeral b id.span.toNat ∧ IDNumeral c id.parent.toNat) := by
  constructor
  · intro h
    unfold parseSpanID at h
    split at h
    · rename_i p0 p1 hs
      left
      obtain ⟨h0, h1⟩ := splitOn_cons _ _ _ _ hs
      rcases h1 with ⟨hn, -⟩ | ⟨s1, rfl, hs1⟩
      · simp at hn
      obtain ⟨h1, h2⟩ := splitOn_cons _ _ _ _ hs1
      rcases h2 with ⟨-, rfl⟩ | ⟨s2, -, hs2⟩
      · split at h
        · simp at h
        · rename_i root hroot
          split at h
          · simp at h
          · rename_i sp hsp
            simp only [Except.ok.injEq] at h
            subst h
            exact ⟨p0, _, rfl, (parseID_ok _ _).1 hroot, (parseID_ok _ _).1 hsp, rfl⟩
      · exact absurd hs2 (splitOn_ne_nil _ _)
    · rename_i p0 p1 p2 hs
      right
      obtain ⟨h0, h1⟩ := splitOn_cons _ _ _ _ hs
      rcases h1 with ⟨hn, -⟩ | ⟨s1, rfl, hs1⟩
      · simp at hn
      obtain ⟨h1, h2⟩ := splitOn_cons _ _ _ _ hs1
      rcases h2 with ⟨hn, -⟩ | ⟨s2, rfl, hs2⟩
      · simp at hn
      obtain ⟨h2, h3⟩ := splitOn_cons _ _ _ _ hs2
      rcases h3 with ⟨-, rfl⟩ | ⟨s3, -, hs3⟩
      · split at h
        · simp at h
        · rename_i root hroot
          split at h
          · simp at h
          · rename_i sp hsp
            split at h
            · simp at h
            · rename_i pa hpa
              simp only [Except.ok.injEq] at h
              subst h
              exact ⟨p0, p1, _, rfl, (parseID_ok _ _).1 hroot, (parseID_ok _ _).1 hsp,
                (parseID_ok _ _).1 hpa⟩
      · exact absurd hs3 (splitOn_ne_nil _ _)
    · simp at h
  · rintro (⟨a, b, rfl, ha, hb, hp⟩ | ⟨a, b, c, rfl, ha, hb, hc⟩)
    · have hs : splitOn spanIDDelimiter (a ++ spanIDDelimiter :: b) = [a, b] := by
        rw [splitOn_append _ _ _ (idNumeral_no_delim ha), splitOn_no_sep _ _ (idNumeral_no_delim hb)]
      obtain ⟨t, sp, p⟩ := id
      simp only at hp ha hb
      subst hp
      unfold parseSpanID
      rw [hs]
      simp only [(parseID_ok _ _).2 ha, (parseID_ok _ _).2 hb]
    · have hs : splitOn spanIDDelimiter (a ++ spanIDDelimiter :: (b ++ spanIDDelimiter :: c)) = [a, b, c] := by
        rw [splitOn_append _ _ _ (idNumeral_no_delim ha), splitOn_append _ _ _ (idNumeral_no_delim hb),
          splitOn_no_sep _ _ (idNumeral_no_delim hc)]
      obtain ⟨t, sp, p⟩ := id
      simp only at hc ha hb
      unfold parseSpanID
      rw [hs]
      simp only [(parseID_ok _ _).2 ha, (parseID_ok _ _).2 hb, (parseID_ok _ _).2 hc]

theorem parseSpanID_toText (id : SpanID) : parseSpanID id.toText = .ok id := by
  rw [parseSpanID_ok]
  unfold SpanID.toText
  split
  · rename_i h
    exact Or.inl ⟨_, _, by simp, toText_numeral _, toText_numeral _, h⟩
  · exact Or.inr ⟨_, _, _, by simp, toText_numeral _, toText_numeral _, toText_numeral _⟩

end Appdash
