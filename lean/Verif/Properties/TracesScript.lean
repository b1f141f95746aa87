import Verif.Proofs.TracesScript
import Verif.Proofs.Dashboard

/-!
# C142: the aggregate view of selected traces
-/

namespace Appdash.TracesScript

open Spec

/-- **C142** (the link).  After any clicks, "Aggregate View" leads to the page `aggregate`, with the IDs of the traces whose boxes are
ticked unless all are. -/
theorem aggregate_link (nils : SpanID → Bool × Bool) (trs : List Tree) (clicks : List TracesClick) (base : Bytes) :
    (clicks.foldl TracesPage.click (.load nils trs)).aggregateHref base =
      some (if (selectedTraces trs clicks).length = trs.length then base ++ b!"aggregate"
        else base ++ b!"aggregate?selection=" ++ commaJoin ((selectedTraces trs clicks).map fun t => t.span.id.trace.toText)) :=
  href_eq nils trs clicks base

/-- **C142** (export).  "Export Selected" offers the list of the traces whose boxes are ticked. -/
theorem export_selected (nils : SpanID → Bool × Bool) (trs : List Tree) (clicks : List TracesClick) :
    (clicks.foldl TracesPage.click (.load nils trs)).exported = some (.arr ((selectedTraces trs clicks).map (encodeTrace nils))) := by
  rw [TracesPage.exported, selected_eq]
  rfl

/-- The traces that are aggregated when "Aggregate View" is followed are the selected ones of the page, as far as they are stored. -/
def ShowsSelected (env : ViewEnv) (ms : MemStore) (stored shown : List Tree) (clicks : List TracesClick) (query : Bytes) : Prop :=
  ∃ agg, serveAggregate env stored query = aggPage env .traceOnly agg ∧
    (∀ tr, tr ∈ agg ↔ ∃ s ∈ selectedTraces shown clicks, ms.view s.span.id.trace = .found tr) ∧
    (agg.map fun tr => tr.span.id.trace).Nodup

/-- Property C142, in full: a page of traces is loaded, some boxes are clicked, there are further calls on the store, and "Aggregate
View" is chosen. -/
def AggregatesSelected : Prop :=
  ∀ (env : ViewEnv) (nils : SpanID → Bool × Bool) (base : Bytes), 63 ∉ base ∧ 35 ∉ base →
    ∀ (ops later : List StoreOp) (ms ms' : MemStore), MemStore.new.run ops = some ms → MemStore.new.run (ops ++ later) = some ms' →
    ∀ (ptrs ptrs' : List Addr) (shown stored : List Tree), ptrs.Perm (ms.tracesPtr {}) → ms.tracesView ptrs = some shown →
    ptrs'.Perm (ms'.tracesPtr {}) → ms'.tracesView ptrs' = some stored →
    ∀ (clicks : List TracesClick) (href : Bytes),
      (clicks.foldl TracesPage.click (.load nils shown)).aggregateHref base = some href →
        ShowsSelected env ms' stored shown clicks (requestQuery href)

/-- Property C142, proved part: it holds if at least one box is ticked, but not all. -/
theorem aggregates_selected_partial (env : ViewEnv) (nils : SpanID → Bool × Bool) (base : Bytes) (hb : 63 ∉ base ∧ 35 ∉ base)
    {ops later : List StoreOp} {ms ms' : MemStore} (h : MemStore.new.run ops = some ms) (h' : MemStore.new.run (ops ++ later) = some ms')
    {ptrs ptrs' : List Addr} {shown stored : List Tree} (hp : ptrs.Perm (ms.tracesPtr {})) (hv : ms.tracesView ptrs = some shown)
    (hp' : ptrs'.Perm (ms'.tracesPtr {})) (hv' : ms'.tracesView ptrs' = some stored) (clicks : List TracesClick) {href : Bytes}
    (hh : (clicks.foldl TracesPage.click (.load nils shown)).aggregateHref base = some href)
    (hsome : selectedTraces shown clicks ≠ []) (hnot : (selectedTraces shown clicks).length < shown.length) :
    ShowsSelected env ms' stored shown clicks (requestQuery href) := by
  rw [href_eq, if_neg (by omega)] at hh
  simp only [Option.some.injEq] at hh
  subst hh
  obtain ⟨trs, e1, _, hnd⟩ := traces_lists_all h {} ptrs hp
  rw [hv] at e1
  cases e1
  let ids := (selectedTraces shown clicks).map fun t => t.span.id.trace
  have hids : ids.Nodup := ((selectedTraces_sublist shown clicks).map _).nodup hnd
  have hne : ids ≠ [] := by simpa [ids] using hsome
  have eids : ((selectedTraces shown clicks).map fun t => t.span.id.trace.toText) = ids.map ID.toText := by simp [ids]
  rw [eids, (selection_query base hb ids).1]
  have hget : queryGet (b!"selection" ++ 61 :: commaJoin (ids.map ID.toText)) b!"selection" = commaJoin (ids.map ID.toText) :=
    queryGet_single _ _ (by decide) (commaJoin_plain ids)
  obtain ⟨ht1, ht2⟩ := selection_texts ids hne
  obtain ⟨trs', sel, e1, e2, e3, e4⟩ := aggregate_selection (env := env) h' ptrs' hp' (query := b!"selection" ++ 61 :: commaJoin (ids.map ID.toText))
    hids (by rw [hget]; exact ht2) (by rw [hget]; exact ht1)
  rw [hv'] at e1
  cases e1
  refine ⟨sel, ?_, ?_, e4⟩
  · rw [e2]
    congr 1
    have : queryGet (b!"selection" ++ 61 :: commaJoin (ids.map ID.toText)) b!"view-mode" = [] := by
      have n38 : (38 : UInt8) ∉ b!"selection" ++ 61 :: commaJoin (ids.map ID.toText) := by
        simp only [List.mem_append, List.mem_cons, not_or]
        exact ⟨by decide, by decide, fun h => (commaJoin_plain ids _ h).2.2.2.1 rfl⟩
      have hs : ∀ v, querySetting (b!"selection" ++ 61 :: commaJoin (ids.map ID.toText)) ≠ some (b!"view-mode", v) := by
        intro v hv
        rw [querySetting] at hv
        split at hv
        · cases hv
        · rw [(cutAt_iff 61 _ b!"selection" _).2 ⟨by decide, .inl rfl⟩] at hv
          rw [show queryUnescape b!"selection" = some b!"selection" from rfl] at hv
          split at hv
          · rename_i h1 _
            simp only [Option.some.injEq, Prod.mk.injEq] at hv h1
            rw [← h1] at hv
            exact absurd hv.1 (by decide)
          · cases hv
      rw [queryGet, splitOn_no_sep _ _ n38]
      simp only [List.filterMap_cons, List.filterMap_nil]
      cases hq : querySetting (b!"selection" ++ 61 :: commaJoin (ids.map ID.toText)) with
      | none => rfl
      | some kv =>
        have : kv.1 ≠ b!"view-mode" := fun e => hs kv.2 (by rw [hq, ← e])
        simp [this]
    rw [this]
    rfl
  · intro tr
    rw [e3]
    simp only [ids, List.mem_map]
    constructor
    · rintro ⟨t, ⟨s, hs, rfl⟩, ht⟩; exact ⟨s, hs, ht⟩
    · rintro ⟨s, hs, ht⟩; exact ⟨_, ⟨s, hs, rfl⟩, ht⟩

/-- Property C142, what happens otherwise: if all boxes are ticked, or none, all traces that are stored by then are aggregated. -/
theorem aggregates_everything_partial (env : ViewEnv) (nils : SpanID → Bool × Bool) (base : Bytes) (hb : 63 ∉ base ∧ 35 ∉ base)
    (shown stored : List Tree) (clicks : List TracesClick) {href : Bytes}
    (hh : (clicks.foldl TracesPage.click (.load nils shown)).aggregateHref base = some href)
    (hsel : selectedTraces shown clicks = [] ∨ selectedTraces shown clicks = shown) :
    serveAggregate env stored (requestQuery href) = aggPage env .traceOnly stored := by
  rw [href_eq] at hh
  simp only [Option.some.injEq] at hh
  subst hh
  split
  · rw [(selection_query base hb []).2]
    rfl
  · rename_i hn
    rcases hsel with e | e
    · rw [e]
      have := (selection_query base hb []).1
      simp only [List.map_nil] at this ⊢
      rw [this]
      rfl
    · exact absurd (by rw [e]) hn

/-- Property C142, proved part: it also holds if all boxes are ticked and no trace was added since the page was loaded. -/
theorem aggregates_all_partial (env : ViewEnv) (nils : SpanID → Bool × Bool) (base : Bytes) (hb : 63 ∉ base ∧ 35 ∉ base)
    {ops later : List StoreOp} {ms ms' : MemStore} (h : MemStore.new.run ops = some ms) (h' : MemStore.new.run (ops ++ later) = some ms')
    {ptrs ptrs' : List Addr} {shown stored : List Tree} (hp : ptrs.Perm (ms.tracesPtr {})) (hv : ms.tracesView ptrs = some shown)
    (hp' : ptrs'.Perm (ms'.tracesPtr {})) (hv' : ms'.tracesView ptrs' = some stored) (clicks : List TracesClick) {href : Bytes}
    (hh : (clicks.foldl TracesPage.click (.load nils shown)).aggregateHref base = some href)
    (hall : selectedTraces shown clicks = shown) (hnew : ∀ t tr, ms'.view t = .found tr → ∃ tr', ms.view t = .found tr') :
    ShowsSelected env ms' stored shown clicks (requestQuery href) := by
  obtain ⟨trs, e1, hm, _⟩ := traces_lists_all h {} ptrs hp
  rw [hv] at e1
  cases e1
  obtain ⟨trs', e1, hm', hnd'⟩ := traces_lists_all h' {} ptrs' hp'
  rw [hv'] at e1
  cases e1
  refine ⟨stored, aggregates_everything_partial env nils base hb shown stored clicks hh (.inr hall), ?_, hnd'⟩
  intro tr
  rw [hall, hm']
  constructor
  · rintro ⟨t, ht⟩
    obtain ⟨s, hs⟩ := hnew t tr ht
    have e := (view_wellPlaced h hs).trace _ (span_mem_spans s)
    exact ⟨s, (hm s).2 ⟨t, hs⟩, by rw [e]; exact ht⟩
  · rintro ⟨s, _, ht⟩
    exact ⟨_, ht⟩

/-- The calls that record a trace, and then another one. -/
def firstTrace : List StoreOp := [.collect ⟨2, 1, 0⟩ fiveTrace.span.annotations]
def secondTrace : List StoreOp := [.collect ⟨3, 1, 0⟩ (untimedSpan ⟨3, 1, 0⟩ b!"y").annotations]

theorem first_stored : (MemStore.new.run firstTrace).bind (fun ms => ms.tracesView (ms.tracesPtr {})) = some [fiveTrace] := by
  decide_cbv

theorem both_stored : (MemStore.new.run (firstTrace ++ secondTrace)).bind (fun ms => ms.tracesView (ms.tracesPtr {})) =
    some [fiveTrace, .node (untimedSpan ⟨3, 1, 0⟩ b!"y") []] := by decide_cbv

/-- With no box ticked, the trace is aggregated all the same. -/
theorem none_selected (nils : SpanID → Bool × Bool) :
    (([.toggle] : List TracesClick).foldl TracesPage.click (.load nils [fiveTrace])).aggregateHref b!"/" = some b!"/aggregate?selection=" ∧
      selectedTraces [fiveTrace] [.toggle] = [] ∧
      serveAggregate sampleEnv [fiveTrace] (requestQuery b!"/aggregate?selection=") = some (.ok [(b!"x", 5000)]) := by
  refine ⟨?_, rfl, by rfl⟩
  rw [href_eq]
  rfl

/-- With the only box ticked, a trace that was added since is aggregated as well. -/
theorem new_trace_aggregated (nils : SpanID → Bool × Bool) :
    (TracesPage.load nils [fiveTrace]).aggregateHref b!"/" = some b!"/aggregate" ∧ selectedTraces [fiveTrace] [] = [fiveTrace] ∧
      serveAggregate sampleEnv [fiveTrace, .node (untimedSpan ⟨3, 1, 0⟩ b!"y") []] (requestQuery b!"/aggregate") =
        some (.ok [(b!"x", 5000), (b!"y", 1)]) := by
  refine ⟨?_, rfl, by rfl⟩
  have := href_eq nils [fiveTrace] [] b!"/"
  rw [List.foldl_nil] at this
  rw [this]
  rfl

/-- Property C142 is false of the code. -/
theorem aggregates_selected_false : ¬ AggregatesSelected := by
  intro h
  obtain ⟨ms, hms, hv⟩ := Option.bind_eq_some_iff.1 first_stored
  obtain ⟨e1, e2, e3⟩ := none_selected fun _ => (true, true)
  obtain ⟨agg, ha, hm, _⟩ := h sampleEnv (fun _ => (true, true)) b!"/" (by decide) firstTrace [] ms ms hms hms _ _ _ _ (.refl _) hv (.refl _) hv
    [.toggle] _ e1
  rw [e2] at hm
  have : agg = [] := List.eq_nil_iff_forall_not_mem.2 fun tr htr => by
    obtain ⟨s, hs, _⟩ := (hm tr).1 htr
    cases hs
  rw [e3, this] at ha
  exact absurd ha (by decide)

/-- With two traces and one box unticked, the other trace is aggregated. -/
example (nils : SpanID → Bool × Bool) :
    (([.box 1] : List TracesClick).foldl TracesPage.click
        (.load nils [fiveTrace, .node (untimedSpan ⟨3, 1, 0⟩ b!"y") []])).aggregateHref b!"/" =
      some b!"/aggregate?selection=0000000000000002" ∧
    serveAggregate sampleEnv [fiveTrace, .node (untimedSpan ⟨3, 1, 0⟩ b!"y") []]
      (requestQuery b!"/aggregate?selection=0000000000000002") = some (.ok [(b!"x", 5000)]) := by
  refine ⟨?_, by rfl⟩
  rw [href_eq]
  rfl

/-- Clicks on boxes and on "Toggle Selection". -/
example : (List.range 3).map (tickedAfter [.box 0, .box 2, .toggle, .box 1]) = [false, true, false] ∧
    (List.range 3).map (tickedAfter [.toggle, .toggle, .box 1]) = [true, false, true] := by decide

end Appdash.TracesScript
