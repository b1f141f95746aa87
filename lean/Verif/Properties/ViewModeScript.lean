import Verif.Proofs.ViewModeScript
import Verif.Properties.TracesScript

/-!
# C143: the menu "View Mode"
-/

namespace Appdash.ViewModeScript

open Spec

/-- Property C143, in full: after a choice from the menu, the page that is requested has the view mode chosen. -/
def ModeChosen : Prop :=
  ∀ href name : Bytes, ModeName name → FirstSetting (requestQuery (viewMode href name)) b!"view-mode" name

/-- Property C143, proved part: in addresses without `#`, with at most one question mark and where the view mode is not set in unusual ways,
the page requested has the view mode chosen, and all other settings, such as the selection of traces, are the same as before.  The new
address is such an address again. -/
theorem mode_chosen_partial {href path query : Bytes} (ha : PlainAddress href path query) (hm : PlainModes query) {name : Bytes}
    (hn : ModeName name) :
    ∃ query', requestQuery (viewMode href name) = query' ∧ PlainAddress (viewMode href name) path query' ∧ PlainModes query' ∧
      FirstSetting query' b!"view-mode" name ∧
      ∀ k, k ≠ b!"view-mode" → ∀ v, FirstSetting query' k v ↔ FirstSetting query k v := by
  obtain ⟨hp, hq, hh⟩ := ha
  rw [plainModes_iff] at hm
  obtain ⟨ss, h38, rfl, hpl⟩ := hm
  have hk : ∀ k ∈ b!"view-mode" ++ [61], foldCase k ≠ 38 := by decide
  -- the settings after the choice
  have hss : ∃ ss' : List Bytes, (∀ s ∈ ss', 38 ∉ s) ∧ PlainSettings ss' ∧ (63 ∉ List.intercalate [38] ss' ∧ 35 ∉ List.intercalate [38] ss') ∧
      (∀ k, firstOf k ss' = firstOf k ss) ∧ viewMode href name = path ++ 63 :: List.intercalate [38] (setSetting b!"view-mode" name ss') := by
    rcases hh with rfl | ⟨rfl, e⟩
    · by_cases hne : ss = []
      · subst hne
        refine ⟨[[]], by simp, ?_, by simp [List.intercalate], fun k => by rw [firstOf_cons]; rfl, ?_⟩
        · intro s hs
          simp only [List.mem_singleton] at hs
          subst hs
          rintro (⟨v, h, _⟩ | ⟨r, h⟩)
          · exact absurd rfl h
          · cases h
        · exact (update_eq hk ⟨hp.1, hp.2.1⟩).1 [[]] (by simp) (by simp)
      · refine ⟨ss, h38, hpl, hq, fun _ => rfl, (update_eq hk ⟨hp.1, hp.2.1⟩).1 ss hne fun s hs => ⟨h38 s hs, fun h => hq.1 (mem_of_intercalate hs h)⟩⟩
    · refine ⟨([] : List Bytes), by simp, fun s hs => (by simp at hs), by simp [List.intercalate], ?_, (update_eq hk ⟨hp.1, hp.2.1⟩).2⟩
      intro k
      rw [← queryGet_firstOf k ss h38, e]
      rfl
  obtain ⟨ss', h38', hpl', hq', hfirst, hview⟩ := hss
  have hname : ∀ c ∈ b!"view-mode" ++ 61 :: name, c ≠ 38 ∧ c ≠ 63 ∧ c ≠ 35 := by
    rcases hn with rfl | rfl | rfl <;> decide
  have h38s : ∀ s ∈ setSetting b!"view-mode" name ss', 38 ∉ s := by
    intro s hs h
    rcases setSetting_mem ss' s hs with h' | rfl
    · exact h38' s h' h
    · exact (hname _ h).1 rfl
  have hno : ∀ c : UInt8, c = 63 ∨ c = 35 → c ∉ List.intercalate [38] (setSetting b!"view-mode" name ss') := by
    intro c hc h
    rcases mem_intercalate h with rfl | ⟨s, hs, h⟩
    · rcases hc with hc | hc <;> exact absurd hc (by decide)
    · rcases setSetting_mem ss' s hs with h' | rfl
      · rcases hc with rfl | rfl
        · exact hq'.1 (mem_of_intercalate h' h)
        · exact hq'.2 (mem_of_intercalate h' h)
      · rcases hc with rfl | rfl
        · exact (hname _ h).2.1 rfl
        · exact (hname _ h).2.2 rfl
  obtain ⟨s1, s2⟩ := setSetting_spec hn ss' hpl'
  refine ⟨List.intercalate [38] (setSetting b!"view-mode" name ss'), ?_, ⟨hp, ⟨hno 63 (.inl rfl), hno 35 (.inr rfl)⟩, .inl hview⟩, ?_, ?_, ?_⟩
  · rw [hview]
    have := (requestQuery_eq path [] (List.intercalate [38] (setSetting b!"view-mode" name ss')) ⟨hp.1, hp.2.2⟩ (by simp)
      (hno 35 (.inr rfl))).1
    rwa [List.append_nil] at this
  · rw [plainModes_iff]
    refine ⟨_, h38s, rfl, ?_⟩
    intro s hs h
    rcases setSetting_mem ss' s hs with h' | rfl
    · exact hpl' s h' h
    · exact ⟨name, rfl⟩
  · rw [← queryGet_iff, queryGet_firstOf _ _ h38s, s1]
  · intro k hk v
    rw [← queryGet_iff, ← queryGet_iff, queryGet_firstOf _ _ h38s, queryGet_firstOf _ _ h38, s2 k hk, hfirst]

/-- **C143** (any number of choices).  The last choice counts, and the other settings stay as they were. -/
theorem last_choice_counts {href path query : Bytes} (ha : PlainAddress href path query) (hm : PlainModes query) (names : List Bytes)
    (hns : ∀ n ∈ names, ModeName n) {name : Bytes} (hn : ModeName name) :
    ∃ query', requestQuery ((names ++ [name]).foldl viewMode href) = query' ∧ FirstSetting query' b!"view-mode" name ∧
      ∀ k, k ≠ b!"view-mode" → ∀ v, FirstSetting query' k v ↔ FirstSetting query k v := by
  induction names generalizing href query with
  | nil =>
    obtain ⟨q, h1, _, _, h2, h3⟩ := mode_chosen_partial ha hm hn
    exact ⟨q, h1, h2, h3⟩
  | cons n names ih =>
    obtain ⟨q, _, ha', hm', _, h3⟩ := mode_chosen_partial ha hm (hns n (by simp))
    obtain ⟨q', e1, e2, e3⟩ := ih ha' hm' fun x hx => hns x (List.mem_cons_of_mem _ hx)
    exact ⟨q', e1, e2, fun k hk v => (e3 k hk v).trans (h3 k hk v)⟩

/-- The address of the aggregate view of selected traces is plain. -/
theorem selection_plain {base : Bytes} (hb : 63 ∉ base ∧ 38 ∉ base ∧ 35 ∉ base) (ids : List ID) :
    PlainAddress (base ++ b!"aggregate?selection=" ++ commaJoin (ids.map ID.toText)) (base ++ b!"aggregate")
        (b!"selection=" ++ commaJoin (ids.map ID.toText)) ∧
      PlainModes (b!"selection=" ++ commaJoin (ids.map ID.toText)) ∧
      PlainAddress (base ++ b!"aggregate") (base ++ b!"aggregate") [] ∧ PlainModes [] := by
  have hp : 63 ∉ base ++ b!"aggregate" ∧ 38 ∉ base ++ b!"aggregate" ∧ 35 ∉ base ++ b!"aggregate" := by
    simp only [List.mem_append, not_or]
    exact ⟨⟨hb.1, by decide⟩, ⟨hb.2.1, by decide⟩, hb.2.2, by decide⟩
  have h38 : 38 ∉ b!"selection=" ++ commaJoin (ids.map ID.toText) := by
    simp only [List.mem_append, not_or]
    exact ⟨by decide, fun h => (commaJoin_plain ids _ h).2.2.2.1 rfl⟩
  refine ⟨⟨hp, ?_, .inl (by simp)⟩, ?_, ⟨hp, by simp, .inr ⟨rfl, rfl⟩⟩, ⟨[], by simp, rfl, by simp⟩⟩
  · simp only [List.mem_append, not_or]
    exact ⟨⟨by decide, fun h => (commaJoin_plain ids _ h).2.2.2.2.2.2.2 rfl⟩, by decide, noHash ids⟩
  · refine ⟨[b!"selection=" ++ commaJoin (ids.map ID.toText)], ?_, by simp [List.intercalate], ?_⟩
    · intro s hs
      simp only [List.mem_singleton] at hs
      rw [hs]
      exact h38
    · intro s hs h
      simp only [List.mem_singleton] at hs
      subst hs
      exfalso
      rcases h with ⟨v, hv⟩ | ⟨v, hv⟩
      · obtain ⟨_, _, k, w, h1, h2, h3, _⟩ := hv
        have hk : k = b!"selection" := by
          have e1 := (cutAt_iff 61 (b!"selection=" ++ commaJoin (ids.map ID.toText)) k w).2 ⟨h2, h1⟩
          have e2 := (cutAt_iff 61 (b!"selection=" ++ commaJoin (ids.map ID.toText)) b!"selection" _).2
            ⟨by decide, .inl (show _ = b!"selection" ++ 61 :: commaJoin (ids.map ID.toText) from rfl)⟩
          rw [e1] at e2
          exact (Prod.mk.injEq .. ▸ e2).1
        subst hk
        have := (queryUnescape_iff _ _).2 h3
        revert this
        decide
      · have := congrArg List.head? hv
        revert this
        simp

/-- **C143** (from the list of traces).  After "Aggregate View" for some traces and any choices of view modes, the aggregate of just
these traces in the mode chosen last is shown. -/
theorem selected_in_mode (env : ViewEnv) {base : Bytes} (hb : 63 ∉ base ∧ 38 ∉ base ∧ 35 ∉ base) {ops : List StoreOp} {ms : MemStore}
    (h : MemStore.new.run ops = some ms) {ptrs : List Addr} (hp : ptrs.Perm (ms.tracesPtr {})) {ids : List ID} (hne : ids ≠ [])
    (hi : ids.Nodup) (names : List Bytes) (hns : ∀ n ∈ names, ModeName n) {name : Bytes} (hn : ModeName name) :
    ∃ stored agg, ms.tracesView ptrs = some stored ∧
      serveAggregate env stored
          (requestQuery ((names ++ [name]).foldl viewMode (base ++ b!"aggregate?selection=" ++ commaJoin (ids.map ID.toText)))) =
        aggPage env (parseAggMode name) agg ∧
      (∀ tr, tr ∈ agg ↔ ∃ t ∈ ids, ms.view t = .found tr) ∧ (agg.map fun tr => tr.span.id.trace).Nodup := by
  obtain ⟨h1, h2, _⟩ := selection_plain hb ids
  obtain ⟨q, e1, e2, e3⟩ := last_choice_counts h1 h2 names hns hn
  rw [← queryGet_iff] at e2
  have hsel : queryGet q b!"selection" = commaJoin (ids.map ID.toText) := by
    rw [queryGet_iff, e3 _ (by decide), ← queryGet_iff]
    exact queryGet_single b!"selection" _ (by decide) (commaJoin_plain ids)
  obtain ⟨ht1, ht2⟩ := selection_texts ids hne
  obtain ⟨trs, sel, f1, f2, f3, f4⟩ := aggregate_selection (env := env) h ptrs hp (query := q) hi (by rw [hsel]; exact ht2)
    (by rw [hsel]; exact ht1)
  exact ⟨trs, sel, f1, by rw [e1, f2, e2], f3, f4⟩

/-- Property C143 is false of the code: the setting is put after the `#`, where the server does not see it. -/
theorem mode_chosen_false : ¬ ModeChosen := by
  intro h
  have := h b!"http://localhost:7700/aggregate#" b!"span-only" (.inr (.inl rfl))
  rw [← queryGet_iff] at this
  revert this
  decide

/-- Addresses for which the choice has no effect: with `#`, with a setting without `=` or written with a percent sign, and with a second question mark. -/
theorem choice_without_effect :
    viewMode b!"/aggregate#" b!"span-only" = b!"/aggregate#?view-mode=span-only" ∧
    (∀ href ∈ [b!"/aggregate#", b!"/aggregate?view-mode", b!"/aggregate?view%2Dmode=trace-only", b!"/aggregate?a=?view-mode=trace-only"],
      parseAggMode (queryGet (requestQuery (viewMode href b!"span-only")) b!"view-mode") = .traceOnly) := by decide

example : viewMode b!"http://h/aggregate" b!"span-only" = b!"http://h/aggregate?view-mode=span-only" ∧
    [b!"span-only", b!"trace-and-span"].foldl viewMode b!"/aggregate?selection=01,02&x=1" =
      b!"/aggregate?selection=01,02&x=1&view-mode=trace-and-span" ∧
    viewMode b!"/aggregate?view-mode=span-only&x=1" b!"trace-only" = b!"/aggregate?view-mode=trace-only&x=1" := by decide

end Appdash.ViewModeScript
