import Verif.Proofs.StoreTraces

/-!
# Properties C18-C26, C28, C43, C58: the memory store

`MemStore.new.run ops = some ms` says that `ms` is the store after the calls `ops`, none of which panicked;
`ms.view t` is what a caller of `Trace(t)` sees.  The properties speak about `live t ops`, the `Collect` calls for
trace `t` since it was last deleted (see `Verif.Spec.Store`).
-/

namespace Appdash

open Spec

/-- A history used by the examples: trace 1 arrives out of order, is deleted, and arrives again with annotations;
trace 2 consists of two spans whose parents are missing. -/
def sampleOps : List StoreOp :=
  [.collect ⟨1, 5, 3⟩ [], .collect ⟨1, 3, 1⟩ [], .delete [1, 9],
   .collect ⟨1, 4, 2⟩ [⟨b!"k", some b!"v"⟩], .collect ⟨2, 8, 7⟩ [], .collect ⟨1, 2, 1⟩ [],
   .collect ⟨1, 4, 2⟩ [⟨b!"l", none⟩], .collect ⟨1, 1, 0⟩ [], .collect ⟨2, 9, 6⟩ []]

/-- The tree of trace 1 after `sampleOps`. -/
def sampleTree : Tree :=
  .node ⟨⟨1, 1, 0⟩, []⟩ [.node ⟨⟨1, 2, 1⟩, []⟩ [.node ⟨⟨1, 4, 2⟩, [⟨b!"k", some b!"v"⟩, ⟨b!"l", none⟩]⟩ []]]

/-- **C18** (no panic).  No history of calls makes `Collect` panic. -/
theorem collect_never_panics (ops : List StoreOp) : ∃ ms, MemStore.new.run ops = some ms := by
  obtain ⟨ms, h, -⟩ := sim_run sim_new ops
  exact ⟨ms, h⟩

/-- **C18**.  `Trace` is not-found exactly when nothing was collected for the trace since it was last deleted;
otherwise it returns a finite tree in which no span occurs twice and every span was collected for this trace. -/
theorem trace_finite_tree {ops : List StoreOp} {ms : MemStore} (h : MemStore.new.run ops = some ms) (t : ID) :
    (live t ops = [] ∧ ms.view t = .notFound) ∨
    (live t ops ≠ [] ∧ ∃ tr, ms.view t = .found tr ∧ (tr.spans.map fun s => s.id.span).Nodup ∧
      ∀ sp ∈ tr.spans, sp.id.trace = t ∧ Collected (live t ops) sp.id.span) := by
  rcases run_view h t with h1 | ⟨h1, T, tr, -, H, h2, hu⟩
  · exact Or.inl h1
  · refine Or.inr ⟨h1, tr, h2, spans_nodup H hu, ?_⟩
    intro sp hsp
    obtain ⟨n, s, hs, rfl⟩ := (mem_spans_iff hu sp).1 hsp
    refine ⟨rfl, ?_⟩
    rw [collected_iff, ← H.2.1]
    exact H.2.2.2.1.steps_dom hs

example : (MemStore.new.run sampleOps).map (fun ms => (ms.view 1, ms.view 9)) =
    some (.found sampleTree, .notFound) := by decide_cbv
example : live 1 sampleOps ≠ [] := by decide

/-- **C19**.  Every collected span is in the tree, provided that following declared parents upwards from it does not
run into a cycle. -/
theorem no_span_lost {ops : List StoreOp} {ms : MemStore} (h : MemStore.new.run ops = some ms) (t s : ID)
    (hc : Collected (live t ops) s) (hg : ¬ RunsIntoCycle (live t ops) s) :
    ∃ tr, ms.view t = .found tr ∧ ∃ sp ∈ tr.spans, sp.id.span = s := by
  rcases run_view h t with ⟨h1, -⟩ | ⟨h1, T, tr, -, H, h2, hu⟩
  · rw [h1] at hc; obtain ⟨_, hx, _⟩ := hc; cases hx
  · obtain ⟨n, hn⟩ := reachable_of_good H hc (fun a ha haa => hg ⟨a, ha, haa⟩)
    exact ⟨tr, h2, T.label t s, (mem_spans_iff hu _).2 ⟨n, s, hn, rfl⟩, rfl⟩

/-- **C19** (the condition is exact).  If some parentless span was collected (and no span has ID 0), the spans in the
tree are exactly the collected ones whose chain of declared parents does not run into a cycle. -/
theorem spans_present_iff {ops : List StoreOp} {ms : MemStore} (h : MemStore.new.run ops = some ms) (t : ID)
    (hz : ¬ Collected (live t ops) 0) (hr : ∃ r, declaredParent (live t ops) r = some 0) :
    ∃ tr, ms.view t = .found tr ∧
      ∀ s, (∃ sp ∈ tr.spans, sp.id.span = s) ↔ Collected (live t ops) s ∧ ¬ RunsIntoCycle (live t ops) s := by
  rcases run_view h t with ⟨h1, -⟩ | ⟨h1, T, tr, -, H, h2, hu⟩
  · rw [h1] at hr; obtain ⟨_, hx⟩ := hr; cases hx
  · refine ⟨tr, h2, fun s => ⟨?_, ?_⟩⟩
    · rintro ⟨sp, hsp, rfl⟩
      obtain ⟨n, s, hs, rfl⟩ := (mem_spans_iff hu sp).1 hsp
      refine ⟨?_, ?_⟩
      · rw [collected_iff, ← H.2.1]
        exact H.2.2.2.1.steps_dom hs
      · rintro ⟨a, ha, haa⟩
        refine good_of_reachable H ?_ hs a ha haa
        have hroot := H.2.2.2.2 (fun e he e0 => hz ⟨e, he, e0⟩)
        obtain ⟨r, hlr⟩ := lastRoot_of_parentless hr
        rw [hroot r hlr, lastRoot_parent _ _ hlr]
        intro q hq
        injection hq with hq
        subst hq
        exact hz
    · rintro ⟨hc, hg⟩
      obtain ⟨n, hn⟩ := reachable_of_good H hc (fun a ha haa => hg ⟨a, ha, haa⟩)
      exact ⟨T.label t s, (mem_spans_iff hu _).2 ⟨n, s, hn, rfl⟩, rfl⟩

example : Collected (live 1 sampleOps) 4 ∧ ¬ RunsIntoCycle (live 1 sampleOps) 4 := by
  refine ⟨by decide, ?_⟩
  have hL : ∀ s p, declaredParent (live 1 sampleOps) s = some p → p < s := by
    intro s p
    have e : live 1 sampleOps = [(⟨1, 4, 2⟩, [⟨b!"k", some b!"v"⟩]), (⟨1, 2, 1⟩, []), (⟨1, 4, 2⟩, [⟨b!"l", none⟩]),
        (⟨1, 1, 0⟩, [])] := by decide
    rw [e]
    intro h
    simp only [declaredParent] at h
    repeat' split at h
    all_goals cases h
    all_goals (subst_vars; decide)
  have hlt : ∀ a b, Ancestor (live 1 sampleOps) a b → a < b := by
    intro a b hab
    induction hab with
    | base h => exact hL _ _ h.1
    | step _ h ih => exact UInt64.lt_trans ih (hL _ _ h.1)
  rintro ⟨a, -, haa⟩
  exact UInt64.lt_irrefl a (hlt a a haa)

/-- **C19** (why the condition is needed).  Two spans that claim each other as parent are lost when a parentless
span arrives. -/
theorem cyclic_spans_lost :
    (MemStore.new.run [.collect ⟨1, 2, 3⟩ [], .collect ⟨1, 3, 2⟩ [], .collect ⟨1, 4, 0⟩ []]).map (fun ms => ms.view 1) =
      some (.found (.node ⟨⟨1, 4, 0⟩, []⟩ [])) := by decide_cbv

/-- **C20**.  In the tree, the root is the only span without a tree parent, and every other span is a child of its
declared parent if that was collected, and of the root otherwise.  The parent shown and used is the one of the first
`Collect` for the span. -/
theorem span_under_declared_parent {ops : List StoreOp} {ms : MemStore} (h : MemStore.new.run ops = some ms) {t : ID}
    {tr : Tree} (hv : ms.view t = .found tr) :
    (∀ p, (p, tr.span) ∉ tr.edges) ∧
    ∀ sp ∈ tr.spans, declaredParent (live t ops) sp.id.span = some sp.id.parent ∧
      (sp ≠ tr.span →
        (Collected (live t ops) sp.id.parent → ∃ p, (p, sp) ∈ tr.edges ∧ p.id.span = sp.id.parent) ∧
        (¬ Collected (live t ops) sp.id.parent → (tr.span, sp) ∈ tr.edges)) := by
  obtain ⟨T, -, H, hu⟩ := run_view_found h hv
  have I := H.2.2.2.1
  have hroot : tr.span = T.label t T.root := Forest.unfold_span _ hu
  refine ⟨?_, ?_⟩
  · intro p hp
    obtain ⟨n, q, c, -, hc, -, he⟩ := (mem_edges_iff hu _ _).1 hp
    rw [hroot] at he
    have : T.root = c := congrArg (fun s => s.id.span) he
    exact I.wf.rootless q (this ▸ hc)
  · intro sp hsp
    obtain ⟨n, s, hs, rfl⟩ := (mem_spans_iff hu sp).1 hsp
    obtain ⟨p, hp, hl⟩ := label_eq H (t := t) hs
    refine ⟨by rw [hl]; exact hp, ?_⟩
    intro hne
    have hsr : s ≠ T.root := by rintro rfl; exact hne hroot.symm
    cases n with
    | zero => cases hs; exact absurd rfl hsr
    | succ n =>
      obtain ⟨q, hq, hx⟩ := hs
      have hedge : (T.label t q, T.label t s) ∈ tr.edges := (mem_edges_iff hu _ _).2 ⟨n, q, s, hq, hx, rfl, rfl⟩
      have hpar : (T.label t s).id.parent = p := by rw [hl]
      rw [hpar]
      have hTp : T.par s = some p := by rw [H.2.1]; exact hp
      rcases I.place q s hx with h1 | ⟨h1, q', h2, h3⟩
      · rw [hTp] at h1
        injection h1 with h1
        subst h1
        refine ⟨fun _ => ⟨_, hedge, rfl⟩, fun hn => ?_⟩
        exact absurd ((collected_iff _ _).2 (by rw [← H.2.1]; exact I.dom_p _ _ hx)) hn
      · rw [hTp] at h2
        injection h2 with h2
        subst h2
        subst h1
        refine ⟨fun hc => ?_, fun _ => by rw [hroot]; exact hedge⟩
        rw [collected_iff, ← H.2.1, h3] at hc
        cases hc

example : (MemStore.new.run sampleOps).map (fun ms => ms.view 2) =
    some (.found (.node ⟨⟨2, 8, 7⟩, []⟩ [.node ⟨⟨2, 9, 6⟩, []⟩ []])) := by decide_cbv

/-- **C20** (the root is really excluded).  A temporary root can be a span whose declared parent was collected; then
that parent is a child of it. -/
theorem temporary_root_above_its_parent :
    (MemStore.new.run [.collect ⟨1, 4, 3⟩ [], .collect ⟨1, 2, 1⟩ [], .collect ⟨1, 3, 2⟩ []]).map (fun ms => ms.view 1) =
      some (.found (.node ⟨⟨1, 3, 2⟩, []⟩ [.node ⟨⟨1, 4, 3⟩, []⟩ [], .node ⟨⟨1, 2, 1⟩, []⟩ []])) := by decide_cbv

/-- **C21**.  If no collected span has ID 0 and some collected span is parentless, the root of the tree is a
parentless span: the one whose first `Collect` came last. -/
theorem real_root_is_root {ops : List StoreOp} {ms : MemStore} (h : MemStore.new.run ops = some ms) (t : ID)
    (hz : ¬ Collected (live t ops) 0) (hr : ∃ r, declaredParent (live t ops) r = some 0) :
    ∃ tr, ms.view t = .found tr ∧ tr.span.id.parent = 0 ∧ lastRoot (live t ops) = some tr.span.id.span := by
  rcases run_view h t with ⟨h1, -⟩ | ⟨h1, T, tr, -, H, h2, hu⟩
  · rw [h1] at hr; obtain ⟨_, hx⟩ := hr; cases hx
  · obtain ⟨r, hlr⟩ := lastRoot_of_parentless hr
    have hroot := H.2.2.2.2 (fun e he e0 => hz ⟨e, he, e0⟩) r hlr
    have hsp : tr.span = T.label t T.root := Forest.unfold_span _ hu
    refine ⟨tr, h2, ?_, ?_⟩
    · rw [hsp]
      show (T.par T.root).getD 0 = 0
      rw [H.2.1, hroot, lastRoot_parent _ _ hlr]; rfl
    · rw [hlr, hsp]
      show some r = some T.root
      rw [hroot]

/-- **C21** (temporary root).  In any case the root is a collected span of the trace. -/
theorem root_is_collected {ops : List StoreOp} {ms : MemStore} (h : MemStore.new.run ops = some ms) {t : ID}
    {tr : Tree} (hv : ms.view t = .found tr) : tr.span.id.trace = t ∧ Collected (live t ops) tr.span.id.span := by
  obtain ⟨T, -, H, hu⟩ := run_view_found h hv
  have hsp : tr.span = T.label t T.root := Forest.unfold_span _ hu
  rw [hsp]
  refine ⟨rfl, ?_⟩
  rw [collected_iff, ← H.2.1]
  exact H.2.2.2.1.root_in

example : ¬ Collected (live 1 sampleOps) 0 ∧ declaredParent (live 1 sampleOps) 1 = some 0 ∧
    lastRoot (live 1 sampleOps) = some 1 := by decide
example : lastRoot (live 1 [.collect ⟨1, 7, 0⟩ [], .collect ⟨1, 6, 0⟩ [], .collect ⟨1, 7, 0⟩ []]) = some 6 := by decide

/-- **C21** (why ID 0 is excluded).  A span with ID 0 takes the place of the real root. -/
theorem span_zero_displaces_root :
    (MemStore.new.run [.collect ⟨1, 5, 0⟩ [], .collect ⟨1, 0, 7⟩ []]).map (fun ms => ms.view 1) =
      some (.found (.node ⟨⟨1, 0, 7⟩, []⟩ [.node ⟨⟨1, 5, 0⟩, []⟩ []])) := by decide_cbv

/-- **C22**.  Two histories that give the same spans with the same declared parents and, per span, the same
annotations in some order, lead to the same tree up to the order of siblings and annotations, if exactly one span is
parentless and no span has ID 0. -/
theorem tree_independent_of_history {ops ops' : List StoreOp} {ms ms' : MemStore}
    (h : MemStore.new.run ops = some ms) (h' : MemStore.new.run ops' = some ms') (t r : ID)
    (hz : ¬ Collected (live t ops) 0) (hr : ∀ s, declaredParent (live t ops) s = some 0 ↔ s = r)
    (hp : ∀ s, declaredParent (live t ops) s = declaredParent (live t ops') s)
    (ha : ∀ s, (annotationsOf (live t ops) s).Perm (annotationsOf (live t ops') s)) :
    ∃ tr tr', ms.view t = .found tr ∧ ms'.view t = .found tr' ∧ TreeEquiv tr tr' := by
  have hr1 : ∃ r, declaredParent (live t ops) r = some 0 := ⟨r, (hr r).2 rfl⟩
  have hr2 : ∃ r, declaredParent (live t ops') r = some 0 := ⟨r, by rw [← hp]; exact (hr r).2 rfl⟩
  have hz' : ¬ Collected (live t ops') 0 := by
    rw [collected_iff, ← hp, ← collected_iff]; exact hz
  rcases run_view h t with ⟨h1, -⟩ | ⟨h1, T, tr, -, H, h2, hu⟩
  · rw [h1] at hr1; obtain ⟨_, hx⟩ := hr1; cases hx
  rcases run_view h' t with ⟨h1', -⟩ | ⟨h1', T', tr', -, H', h2', hu'⟩
  · rw [h1'] at hr2; obtain ⟨_, hx⟩ := hr2; cases hx
  refine ⟨tr, tr', h2, h2', ?_⟩
  have root1 : T.root = r := by
    obtain ⟨q, hq⟩ := lastRoot_of_parentless hr1
    rw [H.2.2.2.2 (fun e he e0 => hz ⟨e, he, e0⟩) q hq]
    exact (hr q).1 (lastRoot_parent _ _ hq)
  have root2 : T'.root = r := by
    obtain ⟨q, hq⟩ := lastRoot_of_parentless hr2
    rw [H'.2.2.2.2 (fun e he e0 => hz' ⟨e, he, e0⟩) q hq]
    exact (hr q).1 (by rw [hp]; exact lastRoot_parent _ _ hq)
  have hpar : T.par = T'.par := by funext s; rw [H.2.1, H'.2.1, hp]
  rw [root1] at hu
  rw [root2] at hu'
  refine unfold_equiv ?_ ?_ ?_ _ _ _ _ _ hu hu'
  · intro s; simp [ATrace.label, hpar]
  · intro s; simp only [ATrace.label, H.2.2.1, H'.2.2.1]; exact ha s
  · intro s
    rw [List.perm_ext_iff_of_nodup (H.2.2.2.1.wf.nodup s) (H'.2.2.2.1.wf.nodup s)]
    intro c
    rw [mem_sub_iff H.2.2.2.1, mem_sub_iff H'.2.2.2.1, hpar, root1, root2]

/-- **C22** (permutations).  Collecting the same spans in any other order gives the same tree up to the order of
siblings and annotations, if exactly one of them is parentless, no span has ID 0 and repeated calls for a span agree
on its parent. -/
theorem tree_independent_of_order (t r : ID) (L L' : List Entry) (hperm : L.Perm L')
    (ht : ∀ e ∈ L, e.1.trace = t) (hz : ∀ e ∈ L, e.1.span ≠ 0) (hr : ∃ e ∈ L, e.1.span = r)
    (hr' : ∀ e ∈ L, e.1.parent = 0 ↔ e.1.span = r)
    (hcons : ∀ e ∈ L, ∀ e' ∈ L, e.1.span = e'.1.span → e.1.parent = e'.1.parent) :
    ∃ ms ms' tr tr', MemStore.new.run (L.map fun e => .collect e.1 e.2) = some ms ∧
      MemStore.new.run (L'.map fun e => .collect e.1 e.2) = some ms' ∧
      ms.view t = .found tr ∧ ms'.view t = .found tr' ∧ TreeEquiv tr tr' := by
  obtain ⟨ms, h⟩ := collect_never_panics (L.map fun e => .collect e.1 e.2)
  obtain ⟨ms', h'⟩ := collect_never_panics (L'.map fun e => .collect e.1 e.2)
  have e1 : live t (L.map fun e => .collect e.1 e.2) = L := live_collects t L ht
  have e2 : live t (L'.map fun e => .collect e.1 e.2) = L' :=
    live_collects t L' (fun e he => ht e (hperm.symm.subset he))
  have hdp : ∀ s p, declaredParent L s = some p ↔ ∃ e ∈ L, e.1.span = s ∧ e.1.parent = p :=
    declaredParent_of_consistent L hcons
  obtain ⟨tr, tr', h1, h2, h3⟩ := tree_independent_of_history h h' t r
    (by rw [e1]; rintro ⟨e, he, e0⟩; exact hz e he e0)
    (by
      intro s
      rw [e1, hdp]
      constructor
      · rintro ⟨e, he, rfl, e0⟩; exact (hr' e he).1 e0
      · rintro rfl
        obtain ⟨e, he, hes⟩ := hr
        exact ⟨e, he, hes, (hr' e he).2 hes⟩)
    (by
      intro s
      rw [e1, e2]
      have hdp' := declaredParent_of_consistent L' (fun e he e' he' =>
        hcons e (hperm.symm.subset he) e' (hperm.symm.subset he'))
      apply Option.ext
      intro p
      rw [hdp, hdp']
      constructor
      · rintro ⟨e, he, hh⟩; exact ⟨e, hperm.subset he, hh⟩
      · rintro ⟨e, he, hh⟩; exact ⟨e, hperm.symm.subset he, hh⟩)
    (by intro s; rw [e1, e2]; exact annotationsOf_perm hperm s)
  exact ⟨ms, ms', tr, tr', h, h', h1, h2, h3⟩

example : ∃ (t r : ID) (L : List Entry), 4 ≤ L.length ∧ (∀ e ∈ L, e.1.trace = t) ∧ (∀ e ∈ L, e.1.span ≠ 0) ∧
    (∃ e ∈ L, e.1.span = r) ∧ (∀ e ∈ L, e.1.parent = 0 ↔ e.1.span = r) ∧
    (∀ e ∈ L, ∀ e' ∈ L, e.1.span = e'.1.span → e.1.parent = e'.1.parent) :=
  ⟨1, 7, [(⟨1, 3, 2⟩, []), (⟨1, 2, 7⟩, []), (⟨1, 3, 2⟩, [⟨b!"k", none⟩]), (⟨1, 7, 0⟩, [])], by decide⟩

/-- **C23**.  Each span in the tree carries exactly the annotations collected for it, in call order. -/
theorem annotations_complete {ops : List StoreOp} {ms : MemStore} (h : MemStore.new.run ops = some ms) {t : ID}
    {tr : Tree} (hv : ms.view t = .found tr) :
    ∀ sp ∈ tr.spans, sp.annotations = annotationsOf (live t ops) sp.id.span := by
  obtain ⟨T, -, H, hu⟩ := run_view_found h hv
  intro sp hsp
  obtain ⟨n, s, hs, rfl⟩ := (mem_spans_iff hu sp).1 hsp
  exact H.2.2.1 s

example : annotationsOf (live 1 sampleOps) 4 = [⟨b!"k", some b!"v"⟩, ⟨b!"l", none⟩] := by decide

/-- **C24**.  A `Collect` for another trace, or a `Delete` of other traces, does not change what `Trace(t)` returns. -/
theorem traces_isolated {ops : List StoreOp} {ms ms' : MemStore} (h : MemStore.new.run ops = some ms) (t : ID)
    (op : StoreOp) (hs : ms.step op = some ms')
    (hop : match op with | .collect id _ => id.trace ≠ t | .delete ids => t ∉ ids) : ms'.view t = ms.view t := by
  have h' : MemStore.new.run (ops ++ [op]) = some ms' := by
    rw [run_append, h]
    simp [MemStore.run, hs]
  refine (view_of_live h h' t ?_).symm
  simp only [live, List.foldl_append, List.foldl_cons, List.foldl_nil]
  cases op with
  | collect id as => simp only at hop; simp [liveStep, hop]
  | delete ids => simp only at hop; simp [liveStep, hop]

/-- **C24** (general form).  What `Trace(t)` returns is a function of the calls for `t` since it was last deleted. -/
theorem trace_depends_on_live {ops ops' : List StoreOp} {ms ms' : MemStore} (h : MemStore.new.run ops = some ms)
    (h' : MemStore.new.run ops' = some ms') (t : ID) (e : live t ops = live t ops') : ms.view t = ms'.view t :=
  view_of_live h h' t e

example : ∃ ms ms', MemStore.new.run sampleOps = some ms ∧ ms.step (.collect ⟨2, 7, 0⟩ []) = some ms' := by
  obtain ⟨ms, h⟩ := collect_never_panics sampleOps
  obtain ⟨ms', h'⟩ := collect_never_panics (sampleOps ++ [.collect ⟨2, 7, 0⟩ []])
  rw [run_append, h] at h'
  refine ⟨ms, ms', h, ?_⟩
  simp only [Option.bind_some, MemStore.run] at h'
  cases hs : ms.step (.collect ⟨2, 7, 0⟩ []) with
  | none => rw [hs] at h'; cases h'
  | some _ => rw [hs] at h'; exact h'

/-- **C25** (immediate effect).  After `Delete(ids)`, listed traces are not found and all others are unchanged. -/
theorem delete_removes {ops : List StoreOp} {ms : MemStore} (h : MemStore.new.run ops = some ms) (ids : List ID)
    (t : ID) : (ms.delete ids).view t = if t ∈ ids then .notFound else ms.view t := by
  have h' : MemStore.new.run (ops ++ [.delete ids]) = some (ms.delete ids) := by
    rw [run_append, h]; simp [MemStore.run, MemStore.step]
  split
  · rename_i ht
    rcases run_view h' t with h1 | ⟨h1, -⟩
    · exact h1.2
    · exact absurd (by simp [live, liveStep, ht]) h1
  · rename_i ht
    exact traces_isolated h t (.delete ids) rfl ht

/-- **C25** (fresh start).  After a `Delete` of `t`, the store behaves for `t` as if it had been empty. -/
theorem delete_starts_afresh {ops ops' : List StoreOp} {ids : List ID} {t : ID} (ht : t ∈ ids) {ms ms' : MemStore}
    (h : MemStore.new.run (ops ++ .delete ids :: ops') = some ms) (h' : MemStore.new.run ops' = some ms') :
    ms.view t = ms'.view t := by
  refine view_of_live h h' t ?_
  simp [live, List.foldl_append, liveStep, ht]

example : (MemStore.new.run (sampleOps ++ [.delete [1, 1, 77]])).map (fun ms => (ms.view 1, ms.view 2)) =
    some (.notFound, .found (.node ⟨⟨2, 8, 7⟩, []⟩ [.node ⟨⟨2, 9, 6⟩, []⟩ []])) := by decide_cbv

/-- **C26**.  In whatever order the map is iterated, the list returned by `Traces` consists of the trees that `Trace`
returns for the stored IDs, each exactly once. -/
theorem traces_lists_all {ops : List StoreOp} {ms : MemStore} (h : MemStore.new.run ops = some ms) (opts : TracesOpts)
    (ptrs : List Addr) (hp : ptrs.Perm (ms.tracesPtr opts)) :
    ∃ trs, ms.tracesView ptrs = some trs ∧ (∀ tr, tr ∈ trs ↔ ∃ t, ms.view t = .found tr) ∧
      (trs.map fun tr => tr.span.id.trace).Nodup :=
  traces_view h opts hp

example : (MemStore.new.run sampleOps).map (fun ms => ms.tracesView (ms.tracesPtr {})) =
    some (some [sampleTree, .node ⟨⟨2, 8, 7⟩, []⟩ [.node ⟨⟨2, 9, 6⟩, []⟩ []]]) := by decide_cbv

/-- **C58** (full statement, false).  `Traces` returns only traces listed in `opts.TraceIDs`, if that is not empty. -/
def TracesHonoursIDs : Prop :=
  ∀ (ops : List StoreOp) (ms : MemStore) (opts : TracesOpts), MemStore.new.run ops = some ms → opts.traceIDs ≠ [] →
    ∀ trs, ms.tracesView (ms.tracesPtr opts) = some trs → ∀ tr ∈ trs, tr.span.id.trace ∈ opts.traceIDs

/-- **C58** fails: the memory store ignores `opts.TraceIDs`. -/
theorem traces_ignores_ids : ¬ TracesHonoursIDs := by
  intro H
  obtain ⟨ms, h⟩ := collect_never_panics [.collect ⟨1, 5, 0⟩ []]
  have e : (MemStore.new.run [.collect ⟨1, 5, 0⟩ []]).map (fun ms => ms.tracesView (ms.tracesPtr { traceIDs := [2] })) =
      some (some [.node ⟨⟨1, 5, 0⟩, []⟩ []]) := by decide_cbv
  rw [h] at e
  have := H _ ms { traceIDs := [2] } h (by simp) _ (by injection e) (.node ⟨⟨1, 5, 0⟩, []⟩ []) (by simp)
  revert this
  decide

/-- **C58** (part that holds).  Every requested trace that is stored is among the returned ones, as `Trace` would
return it.  Missing: that no other trace is returned (`traces_ignores_ids`). -/
theorem traces_contains_requested_partial {ops : List StoreOp} {ms : MemStore} (h : MemStore.new.run ops = some ms)
    (opts : TracesOpts) (ptrs : List Addr) (hp : ptrs.Perm (ms.tracesPtr opts)) :
    ∃ trs, ms.tracesView ptrs = some trs ∧ ∀ t ∈ opts.traceIDs, ∀ tr, ms.view t = .found tr → tr ∈ trs := by
  obtain ⟨trs, h1, h2, -⟩ := traces_view h opts hp
  exact ⟨trs, h1, fun t _ tr hv => (h2 tr).2 ⟨t, hv⟩⟩

/-- **C28** (full statement, false).  What a caller reads through the pointer returned by `Trace` never changes. -/
def SnapshotStable : Prop :=
  ∀ (ops ops' : List StoreOp) (ms ms' : MemStore) (t : ID) (a : Addr), MemStore.new.run ops = some ms →
    ms.tracePtr t = some a → ms.run ops' = some ms' → ∀ fuel, unfoldNode ms'.heap fuel a = unfoldNode ms.heap fuel a

/-- **C28** fails: `Trace` returns a pointer into the live tree, which a later `Collect` for the same trace changes. -/
theorem snapshot_not_stable : ¬ SnapshotStable := by
  intro H
  obtain ⟨ms, h⟩ := collect_never_panics [.collect ⟨1, 5, 0⟩ []]
  obtain ⟨ms', h'⟩ := collect_never_panics ([.collect ⟨1, 5, 0⟩ []] ++ [.collect ⟨1, 6, 5⟩ []])
  have e : (MemStore.new.run [.collect ⟨1, 5, 0⟩ []]).map (fun ms => (ms.tracePtr 1, unfoldNode ms.heap 2 0)) =
      some (some 0, some (.node ⟨⟨1, 5, 0⟩, []⟩ [])) := by decide_cbv
  have e' : (MemStore.new.run ([.collect ⟨1, 5, 0⟩ []] ++ [.collect ⟨1, 6, 5⟩ []])).map
      (fun ms => unfoldNode ms.heap 2 0) =
      some (some (.node ⟨⟨1, 5, 0⟩, []⟩ [.node ⟨⟨1, 6, 5⟩, []⟩ []])) := by decide_cbv
  rw [h] at e
  rw [h'] at e'
  rw [run_append, h] at h'
  simp only [Option.map_some, Option.some.injEq, Prod.mk.injEq] at e e'
  have := H _ _ ms ms' 1 0 h e.1 h' 2
  rw [e', e.2] at this
  revert this
  decide

/-- **C28** (part that holds).  The value read through the returned pointer is stable under every later call except a
`Collect` for the same trace: deleting the trace and any calls for other traces do not change it. -/
theorem snapshot_stable_partial {ops ops' : List StoreOp} {ms ms' : MemStore} (h : MemStore.new.run ops = some ms)
    {t : ID} {a : Addr} (ha : ms.tracePtr t = some a) (h' : ms.run ops' = some ms')
    (hops : ∀ id as, StoreOp.collect id as ∈ ops' → id.trace ≠ t) (fuel : Nat) :
    unfoldNode ms'.heap fuel a = unfoldNode ms.heap fuel a :=
  pointer_stable h h' ha hops fuel

example : (MemStore.new.run sampleOps).map (fun ms => ms.tracePtr 1) = some (some 5) := by decide_cbv

/-- **C43**.  `FindSpan(i)` returns nil exactly if no span of the tree has ID `i`; otherwise it returns a subtree whose
root has ID `i`, and no span before it in depth-first order has that ID. -/
theorem find_span_exact (i : ID) (tr : Tree) :
    (tr.findSpan i = none ↔ ∀ sp ∈ tr.spans, sp.id.span ≠ i) ∧
    ∀ r, tr.findSpan i = some r → r.span.id.span = i ∧ Subtree r tr ∧
      ∃ before after, tr.spans = before ++ r.spans ++ after ∧ ∀ sp ∈ before, sp.id.span ≠ i :=
  ⟨findSpan_none i tr, findSpan_some i tr⟩

example : sampleTree.findSpan 4 = some (.node ⟨⟨1, 4, 2⟩, [⟨b!"k", some b!"v"⟩, ⟨b!"l", none⟩]⟩ []) := by decide
example : sampleTree.findSpan 8 = none := by decide

end Appdash
