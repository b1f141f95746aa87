import Verif.Proofs.MultiSlicesRun
import Verif.Properties.Slices

/-!
# C117: the stores of a `MultiStore` share slices
-/

namespace Appdash.Slices

open Spec

/-- **C117**.  As long as calls of `Collect` of a `MultiStore` with any number of stores come one after another — each with a slice that the
program then leaves alone — every one of its stores shows what it was passed, although they all keep the same slices and append to them.
Stores can delete traces in between, each for itself. -/
theorem multi_collected_as_passed_partial {n : Nat} {p : List MultiOp} (P : MultiHandsOver (fun _ => false) p) :
    ∃ s c, Sys.run {} (p.flatMap (MultiOp.ops n)) = some s ∧ Copying.run {} (p.flatMap (MultiOp.ops n)) = some c ∧
      ∀ k, (s.stores k).contents s.arrays = c.stores k := by
  obtain ⟨c', hc, _⟩ := copying_runs (p.flatMap (MultiOp.ops n)) {} fun _ => ⟨[], rfl⟩
  rcases lock_run p (lock_init n) P with ⟨_, h⟩ | h
  · rw [hc] at h; cases h
  · exact h

/-- A program that meets this: the second annotation goes into the room that the first slice has left, by two stores, and they show the same;
then the traces of one store are deleted, and the other one goes on. -/
def sequentialUse : List MultiOp :=
  [.make 0 [note b!"Name" b!"a"] 1, .collect sampleSpan 0 fun _ => 0, .make 1 [note b!"Msg" b!"x"] 0, .collect sampleSpan 1 fun _ => 0,
   .delete 0 [1], .make 0 [note b!"Msg" b!"y"] 4, .write 0 0 (note b!"Msg" b!"z"), .collect sampleSpan 0 fun _ => 1]

example : MultiHandsOver (fun _ => false) sequentialUse := by simp [sequentialUse, MultiHandsOver, upd]

example : ((Sys.run {} (sequentialUse.flatMap (MultiOp.ops 2))).map fun s =>
      (((s.stores 0).contents s.arrays).view 1, ((s.stores 1).contents s.arrays).view 1)) =
    some (.found (.node ⟨sampleSpan, [note b!"Msg" b!"z"]⟩ []),
      .found (.node ⟨sampleSpan, [note b!"Name" b!"a", note b!"Msg" b!"x", note b!"Msg" b!"z"]⟩ [])) := by
  decide_cbv

/-- The two stores have shared an array: both have appended to it in place. -/
example : ((Sys.run {} ((sequentialUse.take 4).flatMap (MultiOp.ops 2))).map fun s =>
      (((s.stores 0).anns 0).arr, ((s.stores 1).anns 0).arr, ((s.stores 0).anns 0).len, ((s.stores 1).anns 0).len)) = some (0, 0, 2, 2) := by
  decide_cbv

/-- Four goroutines pass an annotation each to the two stores of a `MultiStore`, for the same span.  The first call leaves room for two more.
The calls of the others overlap. -/
def overlappingUse : List Op :=
  [.make 0 [note b!"Name" b!"a"] 2, .collect 0 sampleSpan 0 0, .collect 1 sampleSpan 0 0,
   .make 1 [note b!"Msg" b!"x"] 0, .make 2 [note b!"Msg" b!"y"] 0, .make 3 [note b!"Msg" b!"z"] 0,
   .collect 0 sampleSpan 1 0, .collect 0 sampleSpan 2 0, .collect 1 sampleSpan 2 0, .collect 0 sampleSpan 3 0,
   .collect 1 sampleSpan 1 0, .collect 1 sampleSpan 3 0]

theorem overlappingUse_concurrent : Concurrent 2 4 overlappingUse := by
  refine ⟨?_, fun v hv => ⟨(overlappingUse.filter fun op => Op.var? op == some v).take 1, sampleSpan, fun _ => 0, ?_, ?_⟩⟩
  · intro op hop
    simp only [overlappingUse, List.mem_cons, List.not_mem_nil, or_false] at hop
    rcases hop with h | h | h | h | h | h | h | h | h | h | h | h <;> subst h <;> simp [Op.var?]
  · have : v = 0 ∨ v = 1 ∨ v = 2 ∨ v = 3 := by omega
    rcases this with h | h | h | h <;> subst h <;> simp [overlappingUse, Op.var?, Op.isOwn]
  · have : v = 0 ∨ v = 1 ∨ v = 2 ∨ v = 3 := by omega
    rcases this with h | h | h | h <;> subst h <;> rfl

/-- What the first store then shows: the annotation `x` is lost, and `y` is there twice.  The second store shows all four. -/
theorem overlapping_calls_lose :
    ((Sys.run {} overlappingUse).map fun s => (((s.stores 0).contents s.arrays).view 1, ((s.stores 1).contents s.arrays).view 1)) =
        some (.found (.node ⟨sampleSpan, [note b!"Name" b!"a", note b!"Msg" b!"y", note b!"Msg" b!"y", note b!"Msg" b!"z"]⟩ []),
          .found (.node ⟨sampleSpan, [note b!"Name" b!"a", note b!"Msg" b!"y", note b!"Msg" b!"x", note b!"Msg" b!"z"]⟩ [])) ∧
      ((Copying.run {} overlappingUse).map fun c => (c.stores 0).view 1) =
        some (.found (.node ⟨sampleSpan, [note b!"Name" b!"a", note b!"Msg" b!"x", note b!"Msg" b!"y", note b!"Msg" b!"z"]⟩ [])) := by
  decide_cbv

/-- **C117**.  It does not hold once calls overlap, although every goroutine leaves alone what it has passed: a store of a `MultiStore` loses
an annotation and shows another one twice. -/
theorem overlapping_multi_calls : ¬ MultiShowsWhatWasPassed := by
  intro h
  obtain ⟨e1, e2⟩ := overlapping_calls_lose
  cases hs : Sys.run {} overlappingUse with
  | none => rw [hs] at e1; simp at e1
  | some s =>
    cases hc : Copying.run {} overlappingUse with
    | none => rw [hc] at e2; simp at e2
    | some c =>
      rw [hs] at e1
      rw [hc] at e2
      simp only [Option.map_some, Option.some.injEq, Prod.mk.injEq] at e1 e2
      have := h 2 4 _ overlappingUse_concurrent s c hs hc 0 1
      rw [e1.1, e2] at this
      exact absurd this (by decide)

end Appdash.Slices
