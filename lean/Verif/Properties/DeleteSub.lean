import Verif.Proofs.DeleteSub
import Verif.Properties.Store

/-!
# C162: deleting a single span from a memory store

`deleteSubNoLock` is not exported; store.go:291-296 says what its callers may rely on.
-/

namespace Appdash
open Spec

/-- The full statement: after a span has been deleted, its trace does not show it. -/
def DeletedSubGone : Prop :=
  ∀ (ops : List StoreOp) (ms ms' : MemStore) (s : SpanID) (tr : Tree), MemStore.new.run ops = some ms → s.span ≠ 0 →
    ms.deleteSub s false = some (ms', true) → ms'.view s.trace = .found tr → ∀ sp ∈ tr.spans, sp.id.span ≠ s.span

/-- **C162** (false in general).  A span that is not a child of the root stays in the tree, without its annotations. -/
theorem deleted_sub_stays : ¬ DeletedSubGone := by
  intro h
  have key : (MemStore.new.run [.collect ⟨1, 1, 0⟩ [], .collect ⟨1, 2, 1⟩ [], .collect ⟨1, 3, 2⟩ []]).bind (fun ms =>
      (ms.deleteSub ⟨1, 3, 2⟩ false).map fun r => (r.1.view 1, r.2)) =
      some (.found (.node ⟨⟨1, 1, 0⟩, []⟩ [.node ⟨⟨1, 2, 1⟩, []⟩ [.node ⟨⟨1, 3, 2⟩, []⟩ []]]), true) := by decide_cbv
  cases h1 : MemStore.new.run [.collect ⟨1, 1, 0⟩ [], .collect ⟨1, 2, 1⟩ [], .collect ⟨1, 3, 2⟩ []] with
  | none => rw [h1] at key; cases key
  | some ms =>
    rw [h1, Option.bind_some] at key
    cases h2 : ms.deleteSub ⟨1, 3, 2⟩ false with
    | none => rw [h2] at key; cases key
    | some r =>
      obtain ⟨ms', b⟩ := r
      rw [h2] at key
      simp only [Option.map_some, Option.some.injEq, Prod.mk.injEq] at key
      obtain ⟨k1, rfl⟩ := key
      exact h _ ms ms' ⟨1, 3, 2⟩ _ h1 (by decide) h2 k1 ⟨⟨1, 3, 2⟩, []⟩ (by decide) rfl

/-- **C162** (exactly what happens).  Deleting a collected span returns true and changes no other trace.  The trace is shown as before, but
without the annotations of the span and, unless only the annotations were to be deleted, without the span and what is below it if it was a child
of the top span. -/
theorem delete_sub_exact_partial {ops : List StoreOp} {ms : MemStore} (h : MemStore.new.run ops = some ms) (s : SpanID) (only : Bool)
    (hc : Collected (live s.trace ops) s.span) :
    ∃ tr ms', ms.view s.trace = .found tr ∧ ms.deleteSub s only = some (ms', true) ∧
      ms'.view s.trace = .found (if only then clearSpan s.span tr else withoutChild s.span (clearSpan s.span tr)) ∧
      ∀ u, u ≠ s.trace → ms'.view u = ms.view u := by
  obtain ⟨ms0, h0, S⟩ := sim_run sim_new ops
  rw [h] at h0
  cases h0
  have H : HSim _ _ := HSim.run (A := AStore.empty) (f := fun _ => []) (fun _ => rfl) ops
  have Ht := H s.trace
  have St := S s.trace
  cases hA : (AStore.empty.run ops) s.trace with
  | none =>
    rw [hA] at Ht
    have : live s.trace ops = [] := Ht
    rw [this] at hc
    obtain ⟨_, hx, -⟩ := hc
    cases hx
  | some T =>
    rw [hA] at Ht St
    have I := Ht.2.2.2.1
    have hp : (T.par s.span).isSome = true := by
      rw [Ht.2.1]
      exact (collected_iff _ _).1 hc
    obtain ⟨tr, v1, -⟩ := view_found St I
    obtain ⟨ms', k1, k2, k3, k4, k5⟩ := deleteSub_effect St I v1 rfl hp only
    refine ⟨tr, ms', v1, k1, k2, fun u hu => delSub_view_other S hu (fun T hT => ?_) k3 k4 k5⟩
    have Hu := H u
    rw [hT] at Hu
    exact Hu.2.2.2.1

/-- **C162** (unknown spans).  Deleting a span that has not been collected returns false and changes nothing. -/
theorem delete_sub_unknown {ops : List StoreOp} {ms : MemStore} (h : MemStore.new.run ops = some ms) (s : SpanID) (only : Bool)
    (hc : ¬ Collected (live s.trace ops) s.span) : ms.deleteSub s only = some (ms, false) := by
  obtain ⟨ms0, h0, S⟩ := sim_run sim_new ops
  rw [h] at h0
  cases h0
  have H : HSim _ _ := HSim.run (A := AStore.empty) (f := fun _ => []) (fun _ => rfl) ops
  have Ht := H s.trace
  have St := S s.trace
  unfold MemStore.deleteSub
  cases hA : (AStore.empty.run ops) s.trace with
  | none =>
    rw [hA] at St
    have h2 : ms.span.get s.trace = none := St.2
    rw [h2]
  | some T =>
    rw [hA] at Ht St
    obtain ⟨sm, ra, h1, h2, h3, R⟩ := St
    have hn : sm.get s.span = none := by
      have h4 := R.dom s.span
      have h5 : T.par s.span = none := by rw [Ht.2.1]; exact (not_collected_iff _ _).1 hc
      rw [h5] at h4
      cases hg : sm.get s.span with
      | none => rfl
      | some a => rw [hg] at h4; cases h4
    simp only [h1, hn]

/-- **C162** (children of the top span).  Deleting a child of the top span removes just it and what is below it: the trace shows all the other
spans as before. -/
theorem delete_child_partial {ops : List StoreOp} {ms : MemStore} (h : MemStore.new.run ops = some ms) (s : SpanID) {top : Span}
    {l r : List Tree} {c : Tree} (hv : ms.view s.trace = .found (.node top (l ++ c :: r))) (hc : c.span.id.span = s.span) :
    ∃ ms', ms.deleteSub s false = some (ms', true) ∧ ms'.view s.trace = .found (.node top (l ++ r)) ∧
      (∀ sp ∈ (Tree.node top (l ++ r)).spans, sp.id.span ≠ s.span) ∧ ∀ u, u ≠ s.trace → ms'.view u = ms.view u := by
  rcases trace_finite_tree h s.trace with ⟨-, h2⟩ | ⟨-, tr, h1, h2, h3⟩
  · rw [hv] at h2; cases h2
  · rw [hv] at h1
    cases h1
    have hcs : c.span ∈ c.spans := by cases c; simp [Tree.spans, Tree.span]
    have hmem : c.span ∈ (Tree.node top (l ++ c :: r)).spans := by
      rw [Tree.spans, spansList_append, Tree.spansList]
      simp [hcs]
    have hcol := (h3 _ hmem).2
    rw [hc] at hcol
    have hno : ∀ sp ∈ (Tree.node top (l ++ r)).spans, sp.id.span ≠ s.span := by
      have hp : ((Tree.node top (l ++ c :: r)).spans).Perm (c.spans ++ (Tree.node top (l ++ r)).spans) := by
        simp only [Tree.spans, spansList_append, Tree.spansList]
        refine List.Perm.trans ?_ List.perm_middle.symm
        refine List.Perm.cons _ ?_
        rw [← List.append_assoc, ← List.append_assoc]
        exact List.Perm.append_right _ List.perm_append_comm
      have hn := (hp.map fun sp => sp.id.span).nodup_iff.1 h2
      rw [List.map_append, List.nodup_append] at hn
      intro sp hsp he
      exact hn.2.2 _ (List.mem_map_of_mem hcs) _ (List.mem_map_of_mem hsp) (by rw [hc, he])
    obtain ⟨tr0, ms', k0, k1, k2, k3⟩ := delete_sub_exact_partial h s false hcol
    rw [hv] at k0
    cases k0
    refine ⟨ms', k1, ?_, hno, k3⟩
    rw [k2]
    simp only [Bool.false_eq_true, if_false]
    have hl : ∀ t ∈ l ++ r, ∀ sp ∈ t.spans, sp.id.span ≠ s.span := by
      intro t ht sp hsp
      refine hno sp ?_
      obtain ⟨a, b, e⟩ := List.append_of_mem ht
      rw [Tree.spans, e, spansList_append, Tree.spansList]
      simp [hsp]
    have hspan : ∀ t : Tree, (clearSpan s.span t).span.id = t.span.id := by
      intro t; cases t; rfl
    have hkeep : ∀ ts : List Tree, (∀ t ∈ ts, ∀ sp ∈ t.spans, sp.id.span ≠ s.span) →
        (ts.map (clearSpan s.span)).filter (fun t => decide (t.span.id.span ≠ s.span)) = ts := by
      intro ts hts
      rw [List.map_congr_left (fun t ht => clearSpan_absent t (hts t ht)), List.map_id', List.filter_eq_self]
      intro t ht
      have : t.span ∈ t.spans := by cases t; simp [Tree.spans, Tree.span]
      exact decide_eq_true (hts t ht _ this)
    have htop : top.id.span ≠ s.span := hno top (by simp [Tree.spans])
    rw [clearSpan, if_neg htop, withoutChild, clearSpans_eq, List.map_append, List.map_cons, List.filter_append, List.filter_cons,
      if_neg (by rw [hspan, hc]; simp), hkeep l (fun t ht => hl t (by simp [ht])), hkeep r (fun t ht => hl t (by simp [ht]))]

/-- A root with two children, of which the second has a child: the second is deleted with its child, and the first stays. -/
example : ∃ ms ms', MemStore.new.run [.collect ⟨1, 1, 0⟩ [⟨b!"a", none⟩], .collect ⟨1, 2, 1⟩ [], .collect ⟨1, 3, 1⟩ [], .collect ⟨1, 4, 3⟩ []] =
      some ms ∧ ms.deleteSub ⟨1, 3, 1⟩ false = some (ms', true) ∧
    ms'.view 1 = .found (.node ⟨⟨1, 1, 0⟩, [⟨b!"a", none⟩]⟩ [.node ⟨⟨1, 2, 1⟩, []⟩ []]) := by
  obtain ⟨ms, h⟩ := collect_never_panics
    [.collect ⟨1, 1, 0⟩ [⟨b!"a", none⟩], .collect ⟨1, 2, 1⟩ [], .collect ⟨1, 3, 1⟩ [], .collect ⟨1, 4, 3⟩ []]
  have hv : ms.view 1 = .found (.node ⟨⟨1, 1, 0⟩, [⟨b!"a", none⟩]⟩
      ([.node ⟨⟨1, 2, 1⟩, []⟩ []] ++ .node ⟨⟨1, 3, 1⟩, []⟩ [.node ⟨⟨1, 4, 3⟩, []⟩ []] :: [])) := by
    have key : (MemStore.new.run [.collect ⟨1, 1, 0⟩ [⟨b!"a", none⟩], .collect ⟨1, 2, 1⟩ [], .collect ⟨1, 3, 1⟩ [],
      .collect ⟨1, 4, 3⟩ []]).map (fun ms => ms.view 1) = some (.found (.node ⟨⟨1, 1, 0⟩, [⟨b!"a", none⟩]⟩
        [.node ⟨⟨1, 2, 1⟩, []⟩ [], .node ⟨⟨1, 3, 1⟩, []⟩ [.node ⟨⟨1, 4, 3⟩, []⟩ []]])) := by decide_cbv
    rw [h] at key
    exact Option.some.inj key
  obtain ⟨ms', k1, k2, -⟩ := delete_child_partial h ⟨1, 3, 1⟩ hv rfl
  exact ⟨ms, ms', h, k1, k2⟩

end Appdash
