import Verif.Proofs.JsonGrammar

/-! # Only JSON texts are read -/

namespace Appdash

theorem parseStr_sound (n : Nat) : ∀ (s v r : Bytes), parseStr n s = some (v, r) → ∃ t, s = t ++ 34 :: r ∧ StrText t v := by
  induction n with
  | zero => intro s v r h; cases h
  | succ n ih =>
    intro s v r h
    cases s with
    | nil => cases h
    | cons c s =>
      rw [parseStr.eq_def] at h
      dsimp only at h
      split at h
      · rename_i hc
        cases h
        exact ⟨[], by rw [hc]; rfl, .nil⟩
      · rename_i hc34
        split at h
        · rename_i hc92
          subst hc92
          split at h
          · cases h
          · rename_i e s
            split at h
            · rename_i he
              subst he
              split at h
              · cases h
              · rename_i u s1 hg
                obtain ⟨ds, rfl, hd⟩ := getu4_some hg
                split at h
                · cases h
                · rename_i v' r' hp
                  cases h
                  by_cases hu : 0xD800 ≤ u ∧ u < 0xE000
                  · by_cases hpair : ∃ s2 w s3, s1 = 92 :: 117 :: s2 ∧ getu4 s2 = some (w, s3) ∧ u < 0xDC00 ∧ 0xDC00 ≤ w ∧ w < 0xE000
                    · obtain ⟨s2, w, s3, rfl, hg2, hw⟩ := hpair
                      obtain ⟨ds', rfl, hd'⟩ := getu4_some hg2
                      have hs : surrogate u (92 :: 117 :: (ds' ++ s3)) = (0x10000 + (u - 0xD800) * 0x400 + (w - 0xDC00), s3) := by
                        simp only [surrogate, hg2]
                        rw [if_pos hu, if_pos hw, Prod.mk.injEq]
                        exact ⟨by omega, rfl⟩
                      rw [hs] at hp ⊢
                      obtain ⟨t, rfl, ht⟩ := ih _ _ _ hp
                      refine ⟨92 :: 117 :: (ds ++ 92 :: 117 :: (ds' ++ t)), by simp, ?_⟩
                      have := StrText.pair hd hd' ⟨hu.1, hw.1⟩ hw.2 ht
                      rwa [← encodeRune_char (by omega)] at this
                    · have hs : surrogate u s1 = (0xFFFD, s1) := by
                        simp only [surrogate]
                        rw [if_pos hu]
                        split
                        · rename_i s2
                          split
                          · rename_i w s3 hg2
                            rw [if_neg]
                            intro hw
                            exact hpair ⟨s2, w, s3, rfl, hg2, hw⟩
                          · rfl
                        · rfl
                      rw [hs] at hp ⊢
                      obtain ⟨t, rfl, ht⟩ := ih _ _ _ hp
                      refine ⟨92 :: 117 :: (ds ++ t), by simp, ?_⟩
                      have := StrText.lone hd hu (t := t) ?_ ht
                      · rwa [replacement, ← encodeRune_char (by omega)] at this
                      · rintro ⟨ds', t', w, rfl, hd', hw⟩
                        exact hpair ⟨ds' ++ (t' ++ 34 :: r), w, t' ++ 34 :: r, by simp, getu4_hex4 hd' _, hw⟩
                  · have hs : surrogate u s1 = (u, s1) := by unfold surrogate; rw [if_neg hu]
                    rw [hs] at hp ⊢
                    obtain ⟨t, rfl, ht⟩ := ih _ _ _ hp
                    refine ⟨92 :: 117 :: (ds ++ t), by simp, ?_⟩
                    have := StrText.uni hd hu ht
                    rwa [← encodeRune_char (by have := hex4_lt hd; omega)] at this
            · split at h
              · cases h
              · rename_i b hb
                split at h
                · cases h
                · rename_i v' r' hp
                  cases h
                  obtain ⟨t, rfl, ht⟩ := ih _ _ _ hp
                  exact ⟨92 :: e :: t, rfl, .esc (escapeChar_mem hb) ht⟩
        · rename_i hc92
          split at h
          · cases h
          · rename_i h32
            split at h
            · rename_i hl
              split at h
              · cases h
              · rename_i v' r' hp
                cases h
                obtain ⟨t, rfl, ht⟩ := ih _ _ _ hp
                have := StrText.bad (c := c) (t := t) (noChar_append (r := 34 :: r) (by simpa using noChar_of_utf8Len hl)) ht
                rw [replacement_eq] at this
                exact ⟨c :: t, rfl, this⟩
            · rename_i k hl
              split at h
              · cases h
              · rename_i v' r' hp
                cases h
                obtain ⟨t, ht1, ht⟩ := ih _ _ _ hp
                refine ⟨c :: (s.take k ++ t), ?_, .char (char_of_utf8Len hl) hc34 hc92 (by omega) ht⟩
                rw [List.cons_append, List.append_assoc, ← ht1, List.take_append_drop]

theorem skipWS_split (s : Bytes) : ∃ w, s = w ++ skipWS s ∧ Blank w := by
  refine ⟨s.takeWhile isWS, (List.takeWhile_append_dropWhile).symm, fun c hc => ?_⟩
  exact (isWS_iff c).1 (List.all_eq_true.1 List.all_takeWhile c hc)

theorem skipWS_eq {s c} {r : Bytes} (h : skipWS s = c :: r) : ∃ w, s = w ++ c :: r ∧ Blank w := by
  obtain ⟨w, h1, h2⟩ := skipWS_split s
  exact ⟨w, by rw [← h]; exact h1, h2⟩

theorem prefix_drop {p s : Bytes} (h : p.isPrefixOf s = true) : s = p ++ s.drop p.length := by
  obtain ⟨t, rfl⟩ := List.isPrefixOf_iff_prefix.1 h
  simp

mutual
theorem parseVal_sound (n : Nat) (s : Bytes) (v : JVal) (r : Bytes) (h : parseVal n s = some (v, r)) :
    ∃ w t, s = w ++ (t ++ r) ∧ Blank w ∧ JText t v := by
  cases n with
  | zero => cases h
  | succ n =>
    rw [parseVal] at h
    split at h
    · cases h
    · rename_i c s1 hs
      obtain ⟨w, rfl, hw⟩ := skipWS_eq hs
      clear hs
      suffices hh : ∃ t, c :: s1 = t ++ r ∧ JText t v by
        obtain ⟨t, h1, h2⟩ := hh
        exact ⟨w, t, by rw [h1], hw, h2⟩
      split at h
      · rename_i hc
        subst hc
        split at h
        · cases h
        · rename_i t r' hp
          cases h
          obtain ⟨t', rfl, ht⟩ := parseStr_sound _ _ _ _ hp
          exact ⟨34 :: (t' ++ [34]), by simp, .str ht⟩
      · split at h
        · rename_i hc
          subst hc
          split at h
          · rename_i r' hs
            cases h
            obtain ⟨w', rfl, hw'⟩ := skipWS_eq hs
            exact ⟨91 :: (w' ++ [93]), by simp, .arr0 hw'⟩
          · split at h
            · cases h
            · rename_i l r' hp
              cases h
              rw [parseElems_skip] at hp
              obtain ⟨t, rfl, ht⟩ := parseElems_sound n _ _ _ hp
              exact ⟨91 :: t, by simp, .arr ht⟩
        · split at h
          · rename_i hc
            subst hc
            split at h
            · rename_i r' hs
              cases h
              obtain ⟨w', rfl, hw'⟩ := skipWS_eq hs
              exact ⟨123 :: (w' ++ [125]), by simp, .obj0 hw'⟩
            · split at h
              · cases h
              · rename_i l r' hp
                cases h
                rw [parseMembers_skip] at hp
                obtain ⟨t, rfl, ht⟩ := parseMembers_sound n _ _ _ hp
                exact ⟨123 :: t, by simp, .obj ht⟩
          · split at h
            · rename_i hc
              subst hc
              obtain ⟨int, frac, exp, rfl, h2, h3, h4, rfl⟩ := parseNumber_sound h
              exact ⟨45 :: (int ++ (frac ++ exp)), by simp, .num ((numText_iff _ _).2 ⟨true, int, frac, exp, rfl, h2, h3, h4, rfl⟩)⟩
            · split at h
              · obtain ⟨int, frac, exp, h1, h2, h3, h4, rfl⟩ := parseNumber_sound h
                exact ⟨int ++ (frac ++ exp), by simp [h1], .num ((numText_iff _ _).2 ⟨false, int, frac, exp, rfl, h2, h3, h4, rfl⟩)⟩
              · split at h
                · rename_i hp
                  cases h
                  exact ⟨b!"null", prefix_drop hp, .null⟩
                · split at h
                  · rename_i hp
                    cases h
                    exact ⟨b!"true", prefix_drop hp, .true⟩
                  · split at h
                    · rename_i hp
                      cases h
                      exact ⟨b!"false", prefix_drop hp, .false⟩
                    · cases h
termination_by n
theorem parseElems_sound (n : Nat) (s : Bytes) (l : List JVal) (r : Bytes) (h : parseElems n s = some (l, r)) :
    ∃ t, s = t ++ r ∧ JElems t l := by
  cases n with
  | zero => cases h
  | succ n =>
    rw [parseElems] at h
    split at h
    · cases h
    · rename_i v s1 hv
      obtain ⟨w, t, rfl, hw, ht⟩ := parseVal_sound n _ _ _ hv
      split at h
      · rename_i r' hs
        cases h
        obtain ⟨w', rfl, hw'⟩ := skipWS_eq hs
        exact ⟨w ++ (t ++ (w' ++ [93])), by simp, .last hw ht hw'⟩
      · rename_i s2 hs
        obtain ⟨w', rfl, hw'⟩ := skipWS_eq hs
        split at h
        · cases h
        · rename_i l' r' hp
          cases h
          obtain ⟨t', rfl, ht'⟩ := parseElems_sound n _ _ _ hp
          exact ⟨w ++ (t ++ (w' ++ 44 :: t')), by simp, .cons hw ht hw' ht'⟩
      · cases h
termination_by n
theorem parseMembers_sound (n : Nat) (s : Bytes) (l : List (Bytes × JVal)) (r : Bytes) (h : parseMembers n s = some (l, r)) :
    ∃ t, s = t ++ r ∧ JMembers t l := by
  cases n with
  | zero => cases h
  | succ n =>
    rw [parseMembers] at h
    split at h
    · rename_i s1 hs
      obtain ⟨w, rfl, hw⟩ := skipWS_eq hs
      split at h
      · cases h
      · rename_i k s2 hk
        obtain ⟨kt, rfl, hkt⟩ := parseStr_sound _ _ _ _ hk
        split at h
        · rename_i s3 hs3
          obtain ⟨w1, rfl, hw1⟩ := skipWS_eq hs3
          split at h
          · cases h
          · rename_i v s4 hv
            obtain ⟨w2, t, rfl, hw2, ht⟩ := parseVal_sound n _ _ _ hv
            split at h
            · rename_i r' hs5
              cases h
              obtain ⟨w', rfl, hw'⟩ := skipWS_eq hs5
              exact ⟨w ++ 34 :: (kt ++ 34 :: (w1 ++ 58 :: (w2 ++ (t ++ (w' ++ [125]))))), by simp, .last hw hkt hw1 hw2 ht hw'⟩
            · rename_i s6 hs5
              obtain ⟨w', rfl, hw'⟩ := skipWS_eq hs5
              split at h
              · cases h
              · rename_i l' r' hp
                cases h
                obtain ⟨t', rfl, ht'⟩ := parseMembers_sound n _ _ _ hp
                exact ⟨w ++ 34 :: (kt ++ 34 :: (w1 ++ 58 :: (w2 ++ (t ++ (w' ++ 44 :: t'))))), by simp,
                  .cons hw hkt hw1 hw2 ht hw' ht'⟩
            · cases h
        · cases h
    · cases h
termination_by n
end

theorem isJSON_of_parse {s : Bytes} {v : JVal} (h : parseJSON s = some v) : IsJSON s v := by
  unfold parseJSON at h
  split at h
  · cases h
  · rename_i v' r hp
    split at h
    · rename_i hr
      cases h
      obtain ⟨w, t, rfl, hw, ht⟩ := parseVal_sound _ _ _ _ hp
      obtain ⟨w', h1, h2⟩ := skipWS_split r
      rw [hr, List.append_nil] at h1
      exact ⟨w, t, r, hw, h1 ▸ h2, ht, rfl⟩
    · cases h

end Appdash
