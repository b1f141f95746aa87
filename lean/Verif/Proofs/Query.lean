import Verif.Spec.Query
import Verif.Proofs.JsonGrammar
import Verif.Proofs.Pages

/-! # Query strings against their specification -/

namespace Appdash
open Spec

theorem queryUnescape_iff : ∀ t p : Bytes, queryUnescape t = some p ↔ QueryText t p
  | [], p => by
    simp only [queryUnescape, Option.some.injEq]
    constructor
    · rintro rfl; exact .nil
    · intro h; cases h; rfl
  | c :: r, p => by
    have ih := queryUnescape_iff r
    by_cases hc : c = 37
    · subst hc
      match r, ih with
      | [], _ => exact ⟨fun h => by simp [queryUnescape] at h, fun h => by cases h; contradiction⟩
      | [a], _ => exact ⟨fun h => by simp [queryUnescape] at h, fun h => by cases h; contradiction⟩
      | a :: b :: r, _ =>
        have ih := queryUnescape_iff r
        simp only [queryUnescape]
        constructor
        · intro h
          split at h
          · rename_i x y t h1 h2 h3
            simp only [Option.some.injEq] at h
            subst h
            rw [hexVal_iff] at h1 h2
            have hx : x < 16 := by unfold HexDigit at h1; omega
            have hy : y < 16 := by unfold HexDigit at h2; omega
            exact .code h1 h2 (by rw [UInt8.toNat_ofNat']; omega) ((ih t).1 h3)
          · cases h
        · intro h
          cases h with
          | code h1 h2 h3 h4 =>
            rw [← hexVal_iff] at h1 h2
            simp only [h1, h2, (ih _).2 h4, Option.some.injEq, List.cons.injEq, and_true]
            rw [Nat.mul_comm, ← h3]
            simp
          | same h1 => exact absurd rfl h1
    · have e : queryUnescape (c :: r) = match queryUnescape r with
        | none => none
        | some t => some ((if c = 43 then 32 else c) :: t) := by
        rw [queryUnescape]
        · rw [if_neg hc]
          cases queryUnescape r <;> rfl
        · rintro a b r' h; exact absurd h hc
      rw [e]
      constructor
      · intro h
        split at h
        · cases h
        · rename_i t ht
          simp only [Option.some.injEq] at h
          subst h
          split
          · rename_i h43
            subst h43
            exact .space ((ih t).1 ht)
          · rename_i h43
            exact .same hc h43 ((ih t).1 ht)
      · intro h
        cases h with
        | space h => simp [(ih _).2 h]
        | code => exact absurd rfl hc
        | same _ h43 h => simp [(ih _).2 h, h43]

theorem cutAt_iff (sep : UInt8) (s a b : Bytes) :
    cutAt sep s = (a, b) ↔ sep ∉ a ∧ (s = a ++ sep :: b ∨ s = a ∧ b = []) := by
  induction s generalizing a b with
  | nil =>
    simp only [cutAt, Prod.mk.injEq]
    constructor
    · rintro ⟨rfl, rfl⟩; simp
    · rintro ⟨_, h | ⟨rfl, rfl⟩⟩
      · simp at h
      · simp
  | cons c s ih =>
    rw [cutAt]
    split
    · rename_i hc
      subst hc
      simp only [Prod.mk.injEq]
      constructor
      · rintro ⟨rfl, rfl⟩; simp
      · rintro ⟨hn, h | ⟨rfl, rfl⟩⟩
        · cases a with
          | nil => simpa using h
          | cons x a => simp only [List.cons_append, List.cons.injEq] at h; exact absurd (h.1 ▸ List.mem_cons_self ..) hn
        · exact absurd (List.mem_cons_self ..) hn
    · rename_i hc
      cases a with
      | nil =>
        simp only [Prod.mk.injEq, reduceCtorEq, false_and, List.nil_append, List.cons.injEq, false_iff, not_and, or_false]
        intro _ h
        exact absurd h hc
      | cons x a =>
        have := ih a b
        simp only [Prod.ext_iff] at this
        simp only [Prod.mk.injEq, List.cons.injEq, List.cons_append, List.mem_cons, not_or]
        constructor
        · rintro ⟨⟨rfl, h1⟩, h2⟩
          obtain ⟨h3, h4⟩ := this.1 ⟨h1, h2⟩
          refine ⟨⟨fun e => hc e.symm, h3⟩, ?_⟩
          rcases h4 with h4 | ⟨h4, h5⟩
          · exact .inl ⟨rfl, h4⟩
          · exact .inr ⟨⟨rfl, h4⟩, h5⟩
        · rintro ⟨⟨_, h3⟩, ⟨rfl, h4⟩ | ⟨⟨rfl, h4⟩, h5⟩⟩
          · obtain ⟨h1, h2⟩ := this.2 ⟨h3, .inl h4⟩
            exact ⟨⟨rfl, h1⟩, h2⟩
          · obtain ⟨h1, h2⟩ := this.2 ⟨h3, .inr ⟨h4, h5⟩⟩
            exact ⟨⟨rfl, h1⟩, h2⟩

theorem urlParts_iff (url path query : Bytes) : cutAt 63 url = (path, query) ↔ URLParts url path query := cutAt_iff 63 url path query

theorem querySetting_iff (s k v : Bytes) : querySetting s = some (k, v) ↔ Sets s k v := by
  unfold querySetting Sets
  constructor
  · intro h
    split at h
    · cases h
    · rename_i hn
      split at h
      · rename_i k' v' hk hv
        simp only [Option.some.injEq, Prod.mk.injEq] at h
        obtain ⟨rfl, rfl⟩ := h
        obtain ⟨h1, h2⟩ := (cutAt_iff 61 s _ _).1 (rfl : cutAt 61 s = ((cutAt 61 s).1, (cutAt 61 s).2))
        exact ⟨fun e => hn (.inl e), fun e => hn (.inr e), _, _, h2, h1, (queryUnescape_iff _ _).1 hk, (queryUnescape_iff _ _).1 hv⟩
      · cases h
  · rintro ⟨h1, h2, k', v', h3, h4, h5, h6⟩
    rw [if_neg (by rintro (h | h) <;> contradiction), (cutAt_iff 61 s k' v').2 ⟨h4, h3⟩]
    simp only [(queryUnescape_iff _ _).2 h5, (queryUnescape_iff _ _).2 h6]

theorem splitOn_intercalate (sep : UInt8) (ps : List Bytes) (h : ∀ p ∈ ps, sep ∉ p) (hne : ps ≠ []) :
    splitOn sep (List.intercalate [sep] ps) = ps := by
  induction ps with
  | nil => exact absurd rfl hne
  | cons p ps ih =>
    cases ps with
    | nil => simpa [List.intercalate] using splitOn_no_sep sep p (h p (by simp))
    | cons q qs =>
      have e : List.intercalate [sep] (p :: q :: qs) = p ++ sep :: List.intercalate [sep] (q :: qs) := by simp [List.intercalate]
      rw [e, splitOn_append sep p _ (h p (by simp)), ih (fun x hx => h x (List.mem_cons_of_mem _ hx)) (by simp)]

theorem intercalate_splitOn (sep : UInt8) (s : Bytes) : List.intercalate [sep] (splitOn sep s) = s ∧ ∀ p ∈ splitOn sep s, sep ∉ p := by
  induction s with
  | nil => simp [splitOn, List.intercalate]
  | cons c s ih =>
    obtain ⟨h1, h2⟩ := ih
    rw [splitOn]
    split
    · rename_i hc
      subst hc
      cases hs : splitOn c s with
      | nil => exact absurd hs (splitOn_ne_nil c s)
      | cons p ps =>
        rw [hs] at h1 h2
        refine ⟨?_, ?_⟩
        · rw [← h1]; simp [List.intercalate]
        · intro x hx
          rcases List.mem_cons.1 hx with rfl | hx
          · simp
          · exact h2 x hx
    · rename_i hc
      cases hs : splitOn sep s with
      | nil => exact absurd hs (splitOn_ne_nil sep s)
      | cons p ps =>
        rw [hs] at h1 h2
        refine ⟨?_, ?_⟩
        · rw [← h1]
          cases ps <;> simp [List.intercalate]
        · intro x hx
          rcases List.mem_cons.1 hx with rfl | hx
          · simp only [List.mem_cons, not_or]
            exact ⟨fun e => hc e.symm, h2 p (by simp)⟩
          · exact h2 x (List.mem_cons_of_mem _ hx)

theorem queryGet_iff (query key value : Bytes) : queryGet query key = value ↔ FirstSetting query key value := by
  have hfirst : ∀ l : List Bytes,
      ((match (l.filterMap querySetting).find? (fun kv => kv.1 = key) with
        | none => []
        | some kv => kv.2) = value) ↔
      ((∃ before s after, l = before ++ s :: after ∧ Sets s key value ∧ ∀ s' ∈ before, ∀ v, ¬ Sets s' key v) ∨
      (value = [] ∧ ∀ s ∈ l, ∀ v, ¬ Sets s key v)) := by
    intro l
    induction l with
    | nil => simp [eq_comm]
    | cons s l ih =>
      by_cases hs : ∃ v, Sets s key v
      · obtain ⟨v, hv⟩ := hs
        have hq := (querySetting_iff s key v).2 hv
        rw [List.filterMap_cons_some hq, List.find?_cons_of_pos (by simp)]
        constructor
        · rintro rfl
          exact .inl ⟨[], s, l, rfl, hv, by simp⟩
        · rintro (⟨before, s', after, h1, h2, h3⟩ | ⟨_, h⟩)
          · cases before with
            | nil =>
              simp only [List.nil_append, List.cons.injEq] at h1
              obtain ⟨rfl, rfl⟩ := h1
              rw [← querySetting_iff, hq] at h2
              simpa using h2
            | cons b bs =>
              simp only [List.cons_append, List.cons.injEq] at h1
              exact absurd hv (h3 s (by simp [h1.1]) v)
          · exact absurd hv (h s (by simp) v)
      · have hskip : ((s :: l).filterMap querySetting).find? (fun kv => kv.1 = key) = (l.filterMap querySetting).find? (fun kv => kv.1 = key) := by
          cases hq : querySetting s with
          | none => rw [List.filterMap_cons_none hq]
          | some kv =>
            rw [List.filterMap_cons_some hq, List.find?_cons_of_neg]
            simp only [decide_eq_true_eq]
            rintro rfl
            exact hs ⟨kv.2, (querySetting_iff _ _ _).1 hq⟩
        rw [hskip, ih]
        constructor
        · rintro (⟨before, s', after, rfl, h2, h3⟩ | ⟨h1, h2⟩)
          · refine .inl ⟨s :: before, s', after, rfl, h2, fun x hx v hv => ?_⟩
            rcases List.mem_cons.1 hx with rfl | hx
            · exact hs ⟨v, hv⟩
            · exact h3 x hx v hv
          · refine .inr ⟨h1, fun x hx v hv => ?_⟩
            rcases List.mem_cons.1 hx with rfl | hx
            · exact hs ⟨v, hv⟩
            · exact h2 x hx v hv
        · rintro (⟨before, s', after, h1, h2, h3⟩ | ⟨h1, h2⟩)
          · cases before with
            | nil =>
              simp only [List.nil_append, List.cons.injEq] at h1
              obtain ⟨rfl, rfl⟩ := h1
              exact absurd ⟨_, h2⟩ hs
            | cons b bs =>
              simp only [List.cons_append, List.cons.injEq] at h1
              exact .inl ⟨bs, s', after, h1.2, h2, fun x hx => h3 x (List.mem_cons_of_mem _ hx)⟩
          · exact .inr ⟨h1, fun x hx => h2 x (List.mem_cons_of_mem _ hx)⟩
  unfold FirstSetting queryGet
  refine (hfirst (splitOn 38 query)).trans ?_
  constructor
  · intro h
    exact ⟨splitOn 38 query, (intercalate_splitOn 38 query).2, splitOn_ne_nil 38 query, (intercalate_splitOn 38 query).1.symm, h⟩
  · rintro ⟨settings, h1, h2, rfl, h3⟩
    rwa [splitOn_intercalate 38 settings h1 h2]

end Appdash
