import Verif.Proofs.Limit

/-!
# Properties C32 and C33: `LimitStore`

The underlying store is a `MemoryStore` that is empty at the beginning.  `Collect` and `Delete` calls come in any order.
-/

namespace Appdash

open Spec

/-- **C32**, as stated: whatever the calls, `Trace` finds at most `Max` different traces. -/
def LimitHoldsMax : Prop :=
  ∀ (max : Nat) (ops : List LimitOp), 0 < max → ∀ ls, (LimitStore.new max).run ops = some ls →
    ∀ ids : List ID, ids.Nodup → (∀ t ∈ ids, ls.under.view t ≠ .notFound) → ids.length ≤ max

/-- **C32** is false: a free slot of the ring is marked by the trace ID 0, so a trace with that ID is not evicted. -/
theorem limit_max_false : ¬ LimitHoldsMax := by
  intro h
  exact absurd (h 1 [.collect ⟨0, 1, 0⟩ [] false, .collect ⟨2, 2, 0⟩ [] false] (by decide) _ rfl [0, 2] (by decide)
    (by decide_cbv)) (by decide)

/-- **C32**, partial: at most `Max + 1` traces are found, also if underlying `Delete` calls fail; no call panics.
Missing: the exact bound when a trace has ID 0. -/
theorem limit_max_plus_one_partial (max : Nat) (hp : 0 < max) (ops : List LimitOp) :
    ∃ ls, (LimitStore.new max).run ops = some ls ∧
      ∀ ids : List ID, ids.Nodup → (∀ t ∈ ids, ls.under.view t ≠ .notFound) → ids.length ≤ max + 1 := by
  obtain ⟨ls, h1, B⟩ := Bounded.run_ops (seen := fun _ => True) ops (Bounded.new hp _) (fun _ _ _ _ => trivial)
  exact ⟨ls, h1, fun ids hn hv => (B.count hn hv).1⟩

/-- **C32**, partial: at most `Max` traces are found if no collected span has trace ID 0, also if underlying `Delete`
calls fail; no call panics.  Missing: trace ID 0, for which the bound is false (`limit_max_false`). -/
theorem limit_max_partial (max : Nat) (hp : 0 < max) (ops : List LimitOp)
    (h0 : ∀ id as f, LimitOp.collect id as f ∈ ops → id.trace ≠ 0) :
    ∃ ls, (LimitStore.new max).run ops = some ls ∧
      ∀ ids : List ID, ids.Nodup → (∀ t ∈ ids, ls.under.view t ≠ .notFound) → ids.length ≤ max := by
  obtain ⟨ls, h1, B⟩ := Bounded.run_ops (seen := fun t => t ≠ 0) ops (Bounded.new hp _) h0
  exact ⟨ls, h1, fun ids hn hv => (B.count hn hv).2 (fun h => h rfl)⟩

/-- Two traces are found, with `Max = 2`, after three have been collected. -/
example :
    ((LimitStore.new 2).run [.collect ⟨1, 1, 0⟩ [] false, .collect ⟨2, 2, 0⟩ [] false,
      .collect ⟨3, 3, 0⟩ [] false]).any (fun ls => decide (ls.under.view 1 = .notFound ∧ ls.under.view 2 ≠ .notFound ∧
        ls.under.view 3 ≠ .notFound)) = true := by decide_cbv

/-- **C33**, as stated: each trace is what a store without limit would return for it after the calls that count for it. -/
def LimitFifo : Prop :=
  ∀ (max : Nat) (ops : List LimitOp), 0 < max → (∀ id as f, LimitOp.collect id as f ∈ ops → f = false) →
    ∃ ls, (LimitStore.new max).run ops = some ls ∧ ∀ t, ∃ ms,
      MemStore.new.run ((limited max t ops).calls.map fun e => .collect e.1 e.2) = some ms ∧
      ls.under.view t = ms.view t

/-- **C33** is false, again because of trace ID 0. -/
theorem limit_fifo_false : ¬ LimitFifo := by
  intro h
  obtain ⟨ls, h1, h2⟩ := h 1 [.collect ⟨0, 1, 0⟩ [] false, .collect ⟨2, 2, 0⟩ [] false] (by decide) (by
    intro id as f hm
    simp at hm
    rcases hm with ⟨-, -, rfl⟩ | ⟨-, -, rfl⟩ <;> rfl)
  obtain ⟨ms, h3, h4⟩ := h2 0
  have e1 : (((LimitStore.new 1).run [.collect ⟨0, 1, 0⟩ [] false, .collect ⟨2, 2, 0⟩ [] false]).map
      fun ls => decide (ls.under.view 0 = .notFound)) = some false := by decide_cbv
  have e2 : ((MemStore.new.run ((limited 1 0 [.collect ⟨0, 1, 0⟩ [] false, .collect ⟨2, 2, 0⟩ [] false]).calls.map
      fun e => .collect e.1 e.2)).map fun ms => decide (ms.view 0 = .notFound)) = some true := by decide_cbv
  rw [h1] at e1
  rw [h3] at e2
  simp at e1 e2
  rw [h4] at e1
  exact e1 e2

/-- **C33**, partial: if no collected span has trace ID 0, no call panics, and each trace is exactly what a store without
limit would return for it after the calls that count for it: those since its admission, if it is among the traces
admitted last, and none otherwise.  Missing: trace ID 0, for which this is false (`limit_fifo_false`). -/
theorem limit_fifo_partial (max : Nat) (hp : 0 < max) (ops : List LimitOp)
    (h0 : ∀ id as f, LimitOp.collect id as f ∈ ops → id.trace ≠ 0 ∧ f = false) :
    ∃ ls, (LimitStore.new max).run ops = some ls ∧ ∀ t, ∃ ms,
      MemStore.new.run ((limited max t ops).calls.map fun e => .collect e.1 e.2) = some ms ∧
      ls.under.view t = ms.view t := by
  obtain ⟨ls, h1, F⟩ := Fifo.run_ops ops (Fifo.new hp) h0
  obtain ⟨uops, r1, r2⟩ := F.run
  refine ⟨ls, h1, fun t => ?_⟩
  obtain ⟨ms, e1, -⟩ := sim_run sim_new ((limited max t ops).calls.map fun e => StoreOp.collect e.1 e.2)
  refine ⟨ms, e1, view_of_live r1 e1 t ?_⟩
  rw [r2]
  have := live_collects t (limited max t ops).calls (limited_calls_trace max t ops _ (by intro e he; cases he)) []
  rw [List.nil_append] at this
  exact this.symm

/-- **C33**, partial (which traces are held).  Without `Delete` calls by the user, the traces found are exactly those
`limited` lists: at most `Max`, all different. -/
theorem limit_held_partial (max : Nat) (hp : 0 < max) (ops : List LimitOp)
    (h0 : ∀ id as f, LimitOp.collect id as f ∈ ops → id.trace ≠ 0 ∧ f = false)
    (hd : ∀ ids, LimitOp.delete ids ∉ ops) {ls : LimitStore} (hr : (LimitStore.new max).run ops = some ls) :
    ∀ t, (ls.under.view t ≠ .notFound ↔ t ∈ (limited max t ops).held) ∧
      (limited max t ops).held.Nodup ∧ (limited max t ops).held.length ≤ max := by
  obtain ⟨ls', h1, F⟩ := Fifo.run_ops ops (Fifo.new hp) h0
  rw [hr] at h1
  injection h1 with h1
  subst h1
  obtain ⟨uops, r1, r2⟩ := F.run
  intro t
  refine ⟨?_, limited_held_nodup max hp t ops _ (by simp) (by simp)⟩
  have hh : t ∈ (limited max t ops).held ↔ (limited max t ops).calls ≠ [] :=
    limited_held_calls max hp t ops ⟨[], []⟩ hd (by simp)
  rw [hh]
  have r3 : live t uops = (limited max t ops).calls := r2 t
  rcases run_view r1 t with ⟨h1, h2⟩ | ⟨h1, T, tr, -, -, h2, -⟩
  · rw [← r3, h1, h2]; simp
  · rw [← r3, h2]; simp [h1]

/-- **C33**, partial (a `LimitStore` with `Max` 0 stores nothing and reports no error). -/
theorem limit_zero_partial (ls : LimitStore) (h : ls.max = 0) (id : SpanID) (as : List Annotation) (f : Bool) :
    ls.collect id as f = some (ls, false) := by
  simp [LimitStore.collect, h]

/-- A trace that is admitted, evicted and admitted again keeps only its newer span. -/
example :
    let ops : List LimitOp := [.collect ⟨1, 1, 0⟩ [⟨[7], none⟩] false, .collect ⟨2, 2, 0⟩ [] false,
      .collect ⟨3, 3, 0⟩ [] false, .collect ⟨1, 4, 0⟩ [] false, .collect ⟨3, 5, 3⟩ [] false]
    (∀ id as f, LimitOp.collect id as f ∈ ops → id.trace ≠ 0 ∧ f = false) ∧ (limited 2 1 ops).held = [3, 1] ∧
      (limited 2 1 ops).calls = [(⟨1, 4, 0⟩, [])] ∧ (limited 2 2 ops).calls = [] ∧
      (limited 2 3 ops).calls = [(⟨3, 3, 0⟩, []), (⟨3, 5, 3⟩, [])] := by
  refine ⟨?_, by decide, by decide, by decide, by decide⟩
  intro id as f hm
  simp at hm
  rcases hm with ⟨rfl, -, rfl⟩ | ⟨rfl, -, rfl⟩ | ⟨rfl, -, rfl⟩ | ⟨rfl, -, rfl⟩ | ⟨rfl, -, rfl⟩ <;> decide

end Appdash
