import Verif.Proofs.Dashboard

/-!
# C85: the dashboard
-/

namespace Appdash

open Spec

/-- **C85** (links).  Following the link of a row leads to the list of traces, which then asks the store for exactly the slowest
traces of the row, in their order. -/
theorem row_link (ids : List ID) (hne : ids ≠ []) : listedIDs (slowestURL ids) = some ids := by
  have h1 := cutAt_append 63 b!"/traces" (b!"show" ++ 61 :: commaJoin (ids.map ID.toText)) (by decide)
  have h2 := show_ids hne (queryGet_single b!"show" _ (by decide) (commaJoin_plain ids))
  rw [listedIDs, slowestURL_eq, h1]
  simp only [h2]
  rfl

/-- **C85** (why a row without slowest traces is excluded).  Its link shows all traces: an empty list of IDs stands for all. -/
theorem row_link_empty : slowestURL [] = b!"/traces?show=" ∧ listedIDs (slowestURL []) = some [] := by
  constructor <;> decide_cbv

/-- **C85** (data).  With any aggregator and any range, the answer is a JSON list that has one row per result of the aggregator,
in the same order, with its name (as valid UTF-8), times, number of traces and link. -/
theorem dashboard_rows {agg : Aggregator} {query : Bytes} {s e : Int} {results : List AggResult}
    (hs : rangeEnd query b!"start" = some s) (he : rangeEnd query b!"end" = some e) (hr : agg s e = some results) :
    ∃ body, serveDashboardData (some agg) query = .data body ∧
      parseJSON body = some (.arr (results.map fun r => rowOf r (slowestURL r.slowest))) := by
  refine ⟨JVal.print .compact 0 (.arr (results.map rowJSON)), by simp only [serveDashboardData, hs, he, hr], ?_⟩
  rw [parseJSON_print Layout.compact_blank, JVal.clean, cleanList_map]
  simp only [row_clean]

/-- **C85** (range).  The slider's position `v` (in hours, at most about 290 years in either direction) stands for `v - 72` hours,
that is for `72 - v` hours before now. -/
theorem dashboard_range {query key : Bytes} {v : Int} (h1 : -2561975 ≤ v) (h2 : v ≤ 2562119)
    (hq : queryGet query key = formatInt v) : rangeEnd query key = some ((v - 72) * 3600000000000) := by
  have hne : formatInt v ≠ [] := by
    cases v with
    | ofNat n => exact formatDec_ne_nil n
    | negSucc n => exact List.cons_ne_nil _ _
  have hp := parseIntDec_formatInt v (by omega) (by omega)
  simp only [rangeEnd, hq, hne, ne_eq, not_false_eq_true, if_true, hp, hourNs]
  rw [show wrapInt 64 (wrapInt 64 (v * 3600000000000) - 72 * 3600000000000) = wrapInt 64 (v * 3600000000000 - 72 * 3600000000000) from
    Int.bmod_sub_bmod, wrapInt_id (by decide) (by omega) (by omega)]
  congr 1
  omega

/-- **C85** (no range).  A missing end stands for now, so that without any query the range is empty. -/
theorem dashboard_no_range {query key : Bytes} (hq : queryGet query key = []) : rangeEnd query key = some 0 := by
  simp [rangeEnd, hq]

/-- **C85** (other texts).  A text that is no number leads to an error, and the aggregator is not asked. -/
theorem dashboard_bad_range {agg : Aggregator} {query : Bytes}
    (h : ∃ key ∈ [b!"start", b!"end"], queryGet query key ≠ [] ∧ parseIntDec (queryGet query key) = none) :
    serveDashboardData (some agg) query = .failed := by
  obtain ⟨key, hk, h1, h2⟩ := h
  have hr : rangeEnd query key = none := by simp only [rangeEnd, h1, ne_eq, not_false_eq_true, if_true, h2]
  simp only [List.mem_cons, List.not_mem_nil, or_false] at hk
  rcases hk with rfl | rfl
  · simp only [serveDashboardData, hr]
  · simp only [serveDashboardData, hr]
    cases rangeEnd query b!"start" <;> rfl

set_option maxRecDepth 2000 in
/-- **C85** (why the range is bounded).  Beyond that, the hours overflow silently: 292.5 years ahead becomes a range in
the past. -/
theorem dashboard_range_overflow : rangeEnd b!"start=2562120" b!"start" = some (-9223371273709551616) := by decide_cbv

/-- **C85**.  The range that the page's slider sends, the data and the links together. -/
theorem dashboard_shows {agg : Aggregator} {a b : Int} (ha : 0 ≤ a ∧ a ≤ 72) (hb : 0 ≤ b ∧ b ≤ 72) {results : List AggResult}
    {query : Bytes} (hqa : queryGet query b!"start" = formatInt a) (hqb : queryGet query b!"end" = formatInt b)
    (hr : agg ((a - 72) * 3600000000000) ((b - 72) * 3600000000000) = some results) :
    ∃ body links, serveDashboardData (some agg) query = .data body ∧
      parseJSON body = some (.arr (List.zipWith rowOf results links)) ∧ links.length = results.length ∧
      ∀ (i : Nat) (r : AggResult) (link : Bytes), results[i]? = some r → links[i]? = some link → r.slowest ≠ [] → listedIDs link = some r.slowest := by
  obtain ⟨body, h1, h2⟩ := dashboard_rows (dashboard_range (by omega) (by omega) hqa) (dashboard_range (by omega) (by omega) hqb) hr
  refine ⟨body, results.map fun r => slowestURL r.slowest, h1, ?_, by simp, ?_⟩
  · rw [h2]
    congr 2
    clear hr h1 h2
    induction results with
    | nil => rfl
    | cons r rs ih => simp only [List.map_cons, List.zipWith_cons_cons, ih]
  · intro i r link h3 h4 h5
    rw [List.getElem?_map, h3] at h4
    injection h4 with h4
    rw [← h4]
    exact row_link _ h5

/-- An aggregator that has one result for the last 72 hours. -/
def sampleAgg : Aggregator := fun s e =>
  if s = -259200000000000 ∧ e = 0 then some [⟨b!"q", 1999999, -1999999, 7000000, 0, 3, [1, 18446744073709551615]⟩] else none

set_option maxRecDepth 2000 in
/-- It meets the hypotheses. -/
example : serveDashboardData (some sampleAgg) b!"start=0&end=72" =
    .data b!"[{\"Name\":\"q\",\"Average\":1,\"Min\":-1,\"Max\":7,\"StdDev\":0,\"Timespans\":3,\"URL\":\"/traces?show=0000000000000001,ffffffffffffffff\"}]" := by
  decide_cbv

example : serveDashboardData (some sampleAgg) [] = .failed := by decide_cbv
example : serveDashboardData none b!"start=0&end=72" = .disabled := by decide_cbv

end Appdash
