import Verif.Properties.Store
import Verif.Proofs.Pointer

/-!
# What a pointer returned by `Trace` shows later

The pointer of `Trace` is not a snapshot (**C28**, `snapshot_not_stable`).  These theorems say what it shows instead.
-/

namespace Appdash

open Spec

/-- **C28** (what holds).  As long as the trace is not deleted, the pointer shows the current trace from the span on that was its root when
`Trace` was called: the very subtree that `FindSpan` returns for this span in the tree that `Trace` returns now.  This subtree exists
unless the declared parents of the span run into a cycle.  Missing: that nothing changes (`snapshot_not_stable`). -/
theorem pointer_shows_current_partial {ops ops' : List StoreOp} {ms ms' : MemStore} (h : MemStore.new.run ops = some ms) {t : ID}
    {a : Addr} (ha : ms.tracePtr t = some a) (h' : ms.run ops' = some ms') (hk : Keeps t ops') :
    ∃ tr tr', ms.view t = .found tr ∧ ms'.view t = .found tr' ∧
      (∀ r, tr'.findSpan tr.span.id.span = some r → unfoldNode ms'.heap ms'.next a = some r) ∧
      (¬ RunsIntoCycle (live t (ops ++ ops')) tr.span.id.span → ∃ r, tr'.findSpan tr.span.id.span = some r) := by
  obtain ⟨sm, T, S, H, e⟩ := readWhile_stands h ha
  have hS : SimT ms t (some T) := by
    have := S.sim t
    rw [S.at_] at this
    exact this
  obtain ⟨tr, hv, hu⟩ := view_found hS H.2.2.2.1
  obtain ⟨tr', hv', hp⟩ := pointer_subtree h h' ha hk hv
  have hrun : MemStore.new.run (ops ++ ops') = some ms' := by rw [run_append, h]; exact h'
  refine ⟨tr, tr', hv, hv', ?_, ?_⟩
  · intro r hr
    obtain ⟨h1, h2, -⟩ := findSpan_some _ tr' r hr
    exact hp r h2 h1
  · intro hc
    cases hf : tr'.findSpan tr.span.id.span with
    | some r => exact ⟨r, rfl⟩
    | none =>
      exfalso
      have hcol : Collected (live t ops) tr.span.id.span := by
        have hr : tr.span.id.span = T.root := by rw [Forest.unfold_span _ hu]; rfl
        rw [hr, collected_iff, ← H.2.1]
        exact H.2.2.2.1.root_in
      have hcol' : Collected (live t (ops ++ ops')) tr.span.id.span := by
        obtain ⟨x, hx, hxs⟩ := hcol
        exact ⟨x, by rw [live_append ops ops' hk]; exact List.mem_append_left _ hx, hxs⟩
      obtain ⟨tr₂, hv₂, sp, hsp, hs⟩ := no_span_lost hrun t _ hcol' hc
      rw [hv'] at hv₂
      injection hv₂ with hv₂
      subst hv₂
      exact (findSpan_none _ tr').1 hf sp hsp hs

/-- **C28** (what holds).  While no other span has become the root, the pointer shows all of the current trace. -/
theorem pointer_shows_all_partial {ops ops' : List StoreOp} {ms ms' : MemStore} (h : MemStore.new.run ops = some ms) {t : ID} {a : Addr}
    (ha : ms.tracePtr t = some a) (h' : ms.run ops' = some ms') (hk : Keeps t ops') {tr tr' : Tree} (hv : ms.view t = .found tr)
    (hv' : ms'.view t = .found tr') (hs : tr'.span.id.span = tr.span.id.span) : unfoldNode ms'.heap ms'.next a = some tr' := by
  obtain ⟨tr₂, h2, hp⟩ := pointer_subtree h h' ha hk hv
  rw [hv'] at h2
  injection h2 with h2
  subst h2
  exact hp tr' (.refl _) hs

/-- **C28** (what holds).  From the moment the trace is deleted the pointer shows for ever what it showed then, even if spans with the same
trace ID are collected again. -/
theorem pointer_frozen_partial {ops ops' ops'' : List StoreOp} {ms ms₁ ms₂ : MemStore} {ids : List ID} {t : ID} {a : Addr}
    (h : MemStore.new.run ops = some ms) (ha : ms.tracePtr t = some a) (h₁ : ms.run ops' = some ms₁) (hk : Keeps t ops')
    (ht : t ∈ ids) (h₂ : ms₁.run (.delete ids :: ops'') = some ms₂) (fuel : Nat) :
    unfoldNode ms₂.heap fuel a = unfoldNode ms₁.heap fuel a :=
  pointer_frozen h ha h₁ hk ht h₂ fuel

/-- The pointer is taken while span 5 is the only span; then its parent, a root and a child of span 5 come. -/
example : (MemStore.new.run ([.collect ⟨1, 5, 4⟩ []] ++ [.collect ⟨1, 4, 3⟩ [], .collect ⟨1, 3, 0⟩ [], .collect ⟨1, 6, 5⟩ []])).map
      (fun ms => (ms.view 1, unfoldNode ms.heap ms.next 0)) =
    some (.found (.node ⟨⟨1, 3, 0⟩, []⟩ [.node ⟨⟨1, 4, 3⟩, []⟩ [.node ⟨⟨1, 5, 4⟩, []⟩ [.node ⟨⟨1, 6, 5⟩, []⟩ []]]]),
      some (.node ⟨⟨1, 5, 4⟩, []⟩ [.node ⟨⟨1, 6, 5⟩, []⟩ []])) := by decide_cbv
example : (MemStore.new.run [.collect ⟨1, 5, 4⟩ []]).map (fun ms => ms.tracePtr 1) = some (some 0) := by decide_cbv
example : Keeps 1 [.collect ⟨1, 4, 3⟩ [], .delete [2]] := by
  intro ids h
  simp at h
  subst h
  decide

/-- Deleted, and collected again with other spans: the old pointer shows the old span. -/
example : (MemStore.new.run ([.collect ⟨1, 5, 4⟩ []] ++ [.delete [1], .collect ⟨1, 5, 0⟩ [], .collect ⟨1, 6, 5⟩ []])).map
      (fun ms => (ms.view 1, unfoldNode ms.heap ms.next 0)) =
    some (.found (.node ⟨⟨1, 5, 0⟩, []⟩ [.node ⟨⟨1, 6, 5⟩, []⟩ []]), some (.node ⟨⟨1, 5, 4⟩, []⟩ [])) := by decide_cbv

end Appdash
