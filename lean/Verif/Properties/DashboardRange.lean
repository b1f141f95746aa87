import Verif.Spec.DashboardRange
import Verif.Properties.Dashboard
import Verif.Proofs.Query
import Verif.Proofs.Numerals
import Verif.Proofs.JsonSound
import Verif.Proofs.ID

/-!
# C85: the dashboard, for every query string
-/

namespace Appdash
open Spec

/-- **C85** (range).  How the ends of the range are read. -/
theorem range_end_read (query key : Bytes) (t : Int) : rangeEnd query key = some t ↔ RangeEnd query key t := by
  have hq := (queryGet_iff query key _).1 rfl
  have huniq : ∀ text, FirstSetting query key text → text = queryGet query key := fun text h => ((queryGet_iff query key text).2 h).symm
  have hw : ∀ v : Int, wrapInt 64 (wrapInt 64 (v * hourNs) - 72 * hourNs) = wrapInt 64 ((v - 72) * 3600000000000) := fun v => by
    rw [show wrapInt 64 (wrapInt 64 (v * hourNs) - 72 * hourNs) = wrapInt 64 (v * hourNs - 72 * hourNs) from Int.bmod_sub_bmod]
    congr 1
    simp only [hourNs]
    omega
  unfold rangeEnd
  by_cases h : queryGet query key = []
  · simp only [h, ne_eq, not_true_eq_false, if_false, Option.some.injEq]
    constructor
    · rintro rfl
      exact ⟨[], h ▸ hq, .inl ⟨rfl, rfl⟩⟩
    · rintro ⟨text, h1, ⟨-, h2⟩ | ⟨v, h2, -⟩⟩
      · exact h2.symm
      · have := huniq _ h1
        rw [this, h] at h2
        obtain ⟨ds, k, n, hk, hn, h2 | h2⟩ := h2
        · rcases h2.1 with h2 | h2
          · subst h2; have := hn.length; simp at this; omega
          · simp at h2
        · simp at h2
  · simp only [h, ne_eq, not_false_eq_true, if_true]
    constructor
    · intro e
      cases hp : parseIntDec (queryGet query key) with
      | none => rw [hp] at e; cases e
      | some v =>
        rw [hp] at e
        simp only [Option.some.injEq] at e
        obtain ⟨h1, h2⟩ := parseIntDec_iff.1 hp
        rw [hw] at e
        exact ⟨_, hq, .inr ⟨v, h1, h2, (wrapInt_iff (by decide) _ _).1 e.symm⟩⟩
    · rintro ⟨text, h1, ⟨h2, -⟩ | ⟨v, h2, h3, h4⟩⟩
      · rw [huniq _ h1] at h2; exact absurd h2 h
      · rw [huniq _ h1] at h2
        rw [parseIntDec_iff.2 ⟨h2, h3⟩]
        simp only [Option.some.injEq]
        rw [hw]
        exact ((wrapInt_iff (bits := 64) (by decide) _ _).2 h4).symm

/-- **C85** (links).  The link of a row is the one to its slowest traces. -/
theorem row_links_to (ids : List ID) : LinkTo ids (slowestURL ids) := by
  refine ⟨ids.map ID.toText, ?_, ?_⟩
  · induction ids with
    | nil => exact .nil
    | cons i ids ih => exact .cons ⟨toText_length i, toText_lower i, toText_value i⟩ ih
  · rw [slowestURL_eq]
    suffices h : ∀ ts : List Bytes, commaJoin ts = List.intercalate b!"," ts by rw [h]; rfl
    intro ts
    induction ts with
    | nil => rfl
    | cons t ts ih =>
      cases ts with
      | nil => simp [commaJoin, List.intercalate]
      | cons t' ts => rw [commaJoin, ih]; simp [List.intercalate]; rintro ⟨⟩

/-- **C85**.  Whatever the query string is, the aggregator is asked for the range that it gives, and its results are shown: a JSON text
of one row for each, in their order, with a link to its slowest traces.  There is an error exactly if the string gives no range or if
the aggregator fails. -/
theorem dashboard_answers (agg : Aggregator) (query : Bytes) :
    (∃ s e results body links, RangeEnd query b!"start" s ∧ RangeEnd query b!"end" e ∧ agg s e = some results ∧
      serveDashboardData (some agg) query = .data body ∧ IsJSON body (.arr (List.zipWith rowOf results links)) ∧
      List.Forall₂ (fun r link => LinkTo r.slowest link) results links) ∨
    (serveDashboardData (some agg) query = .failed ∧
      ∀ s e, RangeEnd query b!"start" s → RangeEnd query b!"end" e → agg s e = none) := by
  have hfail : ∀ s e, RangeEnd query b!"start" s → RangeEnd query b!"end" e →
      rangeEnd query b!"start" = some s ∧ rangeEnd query b!"end" = some e := fun s e h h' =>
    ⟨(range_end_read _ _ _).2 h, (range_end_read _ _ _).2 h'⟩
  cases hs : rangeEnd query b!"start" with
  | none =>
    refine .inr ⟨by simp only [serveDashboardData, hs], fun s e h h' => ?_⟩
    have := (hfail s e h h').1
    rw [hs] at this; cases this
  | some s =>
    cases he : rangeEnd query b!"end" with
    | none =>
      refine .inr ⟨by simp only [serveDashboardData, hs, he], fun s e h h' => ?_⟩
      have := (hfail s e h h').2
      rw [he] at this; cases this
    | some e =>
      cases hr : agg s e with
      | none =>
        refine .inr ⟨by simp only [serveDashboardData, hs, he, hr], fun s' e' h h' => ?_⟩
        have := hfail s' e' h h'
        rw [hs, he] at this
        rw [← Option.some.inj this.1, ← Option.some.inj this.2, hr]
      | some results =>
        obtain ⟨body, h1, h2⟩ := dashboard_rows hs he hr
        refine .inl ⟨s, e, results, body, results.map fun r => slowestURL r.slowest, (range_end_read _ _ _).1 hs, (range_end_read _ _ _).1 he,
          hr, h1, ?_, ?_⟩
        · have := isJSON_of_parse h2
          rwa [show List.zipWith rowOf results (results.map fun r => slowestURL r.slowest) = results.map fun r => rowOf r (slowestURL r.slowest) by
            rw [List.zipWith_map_right, List.zipWith_self]]
        · clear h1 h2 hr
          induction results with
          | nil => exact .nil
          | cons r rs ih => exact .cons (row_links_to _) ih

example : RangeEnd b!"end=%37" b!"end" (-65 * 3600000000000) := (range_end_read _ _ _).1 (by decide_cbv)
example : RangeEnd b!"end=%37" b!"start" 0 := (range_end_read _ _ _).1 (by decide_cbv)
example : ∀ t, ¬ RangeEnd b!"end=1.5" b!"end" t := fun t h => by
  have := (range_end_read _ _ _).2 h
  rw [show rangeEnd b!"end=1.5" b!"end" = none by decide_cbv] at this
  cases this

end Appdash
