import Verif.Properties.Router
import Verif.Properties.Pages
import Verif.Proofs.Links
import Verif.Proofs.Causal

/-!
# C93: the links on pages
-/

namespace Appdash

open Spec

/-! ## C93 -/

/-- The link for a span leads to the page of that span and everything below it, and its profile link to the profile of these. -/
def LeadsTo (ms : MemStore) (u : Tree) : Prop :=
  visit ms.lookup (spanURL u.span.id) = some (.ok (u, false)) ∧ visit ms.lookup (spanProfileURL u.span.id) = some (.ok (u, true))

/-- **C93**, the full statement.  The links for every span of every stored trace lead to that span. -/
def LinksLead : Prop :=
  ∀ (ops : List StoreOp) (ms : MemStore), MemStore.new.run ops = some ms → ∀ (t : ID) (tr : Tree), ms.view t = .found tr →
    ∀ u, Subtree u tr → LeadsTo ms u

/-- Two parentless spans of one trace. -/
def twoRootOps : List StoreOp := [.collect ⟨1, 5, 0⟩ [], .collect ⟨1, 7, 0⟩ []]

/-- What is shown for the trace. -/
def twoRootTree : Tree := .node ⟨⟨1, 7, 0⟩, []⟩ [.node ⟨⟨1, 5, 0⟩, []⟩ []]

set_option maxRecDepth 2000 in
/-- **C93**, the gap.  If a trace has a second parentless span, its link leads to the page of the whole trace. -/
theorem second_root_link_lost : ¬ LinksLead := by
  intro H
  have hv : (MemStore.new.run twoRootOps).map (fun ms => ms.view 1) = some (.found twoRootTree) := by decide_cbv
  obtain ⟨ms, hms, hv⟩ := Option.map_eq_some_iff.1 hv
  have h := (H twoRootOps ms hms 1 twoRootTree hv (.node ⟨⟨1, 5, 0⟩, []⟩ [])
    (.child (.refl _) (by simp [twoRootTree, Tree.sub]))).1
  have h' := (visit_trace ms.lookup 1).1
  have e : ms.lookup 1 = .ok twoRootTree := by simp only [MemStore.lookup, hv]
  rw [e] at h'
  rw [show spanURL (Tree.node ⟨⟨1, 5, 0⟩, []⟩ []).span.id = urlToTrace 1 from rfl, h'] at h
  revert h
  simp [Except.map, Except.mapError, twoRootTree]

/-- **C93**.  In every stored trace, the links for a span lead to that span if it has a parent or is the root of the trace. -/
theorem links_lead_partial {ops : List StoreOp} {ms : MemStore} (h : MemStore.new.run ops = some ms) {t : ID} {tr : Tree}
    (hv : ms.view t = .found tr) {u : Tree} (hu : Subtree u tr) (h0 : u.span.id.parent = 0 → u = tr) : LeadsTo ms u := by
  have W := view_wellPlaced h hv
  have e : u.span.id.trace = t := W.trace _ (subtree_mem hu _ (span_mem_spans _))
  have hl : ms.lookup t = .ok tr := by simp only [MemStore.lookup, hv]
  unfold LeadsTo spanURL spanProfileURL
  by_cases hp : u.span.id.parent = 0
  · have := visit_trace ms.lookup t
    rw [hl] at this
    rw [if_pos hp, if_pos hp, e, h0 hp]
    exact this
  · rw [if_neg hp, if_neg hp, e]
    exact (visit_span ms.lookup t u.span.id.span tr hl).1 u (findSpan_of_subtree hu W.nodup)

/-- **C93**.  What the links for a parentless span lead to: the whole trace. -/
theorem root_links_lead_to_trace {ms : MemStore} {t : ID} {tr : Tree} (hv : ms.view t = .found tr) (s : SpanID)
    (hs : s.trace = t) (hp : s.parent = 0) :
    visit ms.lookup (spanURL s) = some (.ok (tr, false)) ∧ visit ms.lookup (spanProfileURL s) = some (.ok (tr, true)) := by
  have hl : ms.lookup t = .ok tr := by simp only [MemStore.lookup, hv]
  have := visit_trace ms.lookup t
  rw [hl] at this
  unfold spanURL spanProfileURL
  rw [if_pos hp, if_pos hp, hs]
  exact this

/-- **C93** (timelines).  Suppose the root is the only parentless span of a stored trace.  Every item of the timeline of the trace or
of a part of it stands for a span in that part, bears its ID, and links to the page of that span. -/
theorem timeline_links_partial {ops : List StoreOp} {ms : MemStore} (h : MemStore.new.run ops = some ms) {t : ID} {tr : Tree}
    (hv : ms.view t = .found tr) (h1 : ∀ sp ∈ tr.spans, sp.id.parent = 0 → sp = tr.span) {part : Tree} (hpart : Subtree part tr)
    {env : ViewEnv} {items : List TimelineItem} (hi : d3timeline env part = some (.ok items)) :
    ∀ i ∈ items, ∃ u, Subtree u part ∧ i.spanID = u.span.id.span.toText ∧
      visit ms.lookup i.url = some (.ok (u, false)) := by
  intro i hmem
  obtain ⟨x, hx, hxi⟩ := forall₂_mem_right (timeline_ok env part items hi).2 hmem
  obtain ⟨u, hu, e⟩ := subtree_at (mem_shown env part 0 x hx)
  refine ⟨u, hu, by rw [hxi.2.1.spanID, e], ?_⟩
  rw [hxi.2.1.url, ← e]
  have hu' := hu.trans hpart
  refine (links_lead_partial h hv hu' (fun hp => ?_)).1
  have W := view_wellPlaced h hv
  have e1 := h1 u.span (subtree_mem hu' _ (span_mem_spans _)) hp
  have f1 := findSpan_of_subtree hu' W.nodup
  have f2 := findSpan_of_subtree (.refl tr) W.nodup
  rw [e1, f2] at f1
  injection f1 with f1
  exact f1.symm

/-- **C93** (profiles).  Likewise every row of the profile of the trace or of a part of it links to the page of the span that it
stands for, in depth-first order. -/
theorem profile_links_partial {ops : List StoreOp} {ms : MemStore} (h : MemStore.new.run ops = some ms) {t : ID} {tr : Tree}
    (hv : ms.view t = .found tr) (h1 : ∀ sp ∈ tr.spans, sp.id.parent = 0 → sp = tr.span) {part : Tree} (hpart : Subtree part tr)
    {env : ViewEnv} {ps : List Profile} {p : Profile} (hi : calcProfile env part = some (.ok (ps, p))) :
    List.Forall₂ (fun u (q : Profile) => visit ms.lookup q.url = some (.ok (u, false))) part.subtrees ps := by
  obtain ⟨own, ho, -⟩ := profile_readable env part _ hi
  obtain ⟨ps', p', e1, -, e2⟩ := profile_exact env own part ho
  rw [hi] at e1
  obtain ⟨rfl, rfl⟩ : ps = ps' ∧ p = p' := by simpa using e1
  have W := view_wellPlaced h hv
  have key : ∀ us qs, (∀ u ∈ us, u ∈ part.subtrees) → List.Forall₂ (EntryOf own) us qs →
      List.Forall₂ (fun u (q : Profile) => visit ms.lookup q.url = some (.ok (u, false))) us qs := by
    intro us qs hus hf
    induction hf with
    | nil => exact .nil
    | @cons u q us qs hab _ ih =>
      refine .cons ?_ (ih fun v hv => hus v (by simp [hv]))
      rw [hab.url]
      have hu' := (subtree_of_mem_subtrees part u (hus u (by simp))).trans hpart
      refine (links_lead_partial h hv hu' (fun hp => ?_)).1
      have e1 := h1 u.span (subtree_mem hu' _ (span_mem_spans _)) hp
      have f1 := findSpan_of_subtree hu' W.nodup
      have f2 := findSpan_of_subtree (.refl tr) W.nodup
      rw [e1, f2] at f1
      injection f1 with f1
      exact f1.symm
  exact key _ _ (fun _ h => h) e2

/-- **C93** (the link to the profile).  Whatever URL led to a page: unless the page shows a part of a trace whose root is parentless,
the profile link on it leads to the profile of the tree on the page. -/
theorem page_profile_link_partial {env : ViewEnv} {Z : Flate} {nils : SpanID → Bool × Bool} {ops : List StoreOp}
    {ms ms1 : MemStore} (h : MemStore.new.run ops = some ms) {url : Bytes} {pg : TracePage}
    (hpg : visitURL env Z nils ms url = some (ms1, some (.ok (.page pg))))
    (h0 : pg.trace.span.id.parent = 0 → ms1.view pg.trace.span.id.trace = .found pg.trace) :
    visit ms1.lookup pg.profileURL = some (.ok (pg.trace, true)) := by
  obtain ⟨⟨ops1, h1⟩, t, tr0, hv, hu, htp⟩ := visitURL_page ⟨ops, h⟩ hpg
  have W := view_wellPlaced h1 hv
  have e : pg.trace.span.id.trace = t := W.trace _ (subtree_mem hu _ (span_mem_spans _))
  have hurl : pg.profileURL = spanProfileURL pg.trace.span.id := by
    unfold tracePage at htp
    split at htp <;> simp only [Option.some.injEq, Except.ok.injEq, Shown.page.injEq, reduceCtorEq] at htp <;> rw [← htp]
  rw [hurl]
  refine (links_lead_partial h1 hv hu fun hp => ?_).2
  have := h0 hp
  rw [e, hv] at this
  injection this with this
  exact this.symm

set_option maxRecDepth 2000 in
/-- A trace with a root, a child and a grandchild meets the hypotheses, and the child's link leads to the child. -/
example : ∃ ms tr, MemStore.new.run [.collect ⟨1, 5, 0⟩ [], .collect ⟨1, 7, 5⟩ [], .collect ⟨1, 8, 7⟩ []] = some ms ∧
    ms.view 1 = .found tr ∧ (∀ sp ∈ tr.spans, sp.id.parent = 0 → sp = tr.span) ∧
    visit ms.lookup b!"/traces/0000000000000001/0000000000000007" =
      some (.ok (.node ⟨⟨1, 7, 5⟩, []⟩ [.node ⟨⟨1, 8, 7⟩, []⟩ []], false)) := by
  have hv : (MemStore.new.run [.collect ⟨1, 5, 0⟩ [], .collect ⟨1, 7, 5⟩ [], .collect ⟨1, 8, 7⟩ []]).map (fun ms => ms.view 1) =
      some (.found (.node ⟨⟨1, 5, 0⟩, []⟩ [.node ⟨⟨1, 7, 5⟩, []⟩ [.node ⟨⟨1, 8, 7⟩, []⟩ []]])) := by decide_cbv
  obtain ⟨ms, hms, hv⟩ := Option.map_eq_some_iff.1 hv
  refine ⟨ms, _, hms, hv, ?_, ?_⟩
  · decide
  · exact (links_lead_partial hms hv (u := .node ⟨⟨1, 7, 5⟩, []⟩ [.node ⟨⟨1, 8, 7⟩, []⟩ []])
      (.child (.refl _) (by simp [Tree.sub])) (by decide)).1

end Appdash
