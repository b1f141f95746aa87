import Verif.Proofs.SlicesRun

/-!
# C116: stores show what was passed to them
-/

namespace Appdash.Slices

open Spec

/-- **C116**.  For programs that leave slices alone that they have passed to `Collect` — with any number of slices, stores and chunked
collectors, in any order — every store shows what it would show if every call had been given its own copy of the annotations.  (So the parts
of the model that copy annotations say what such programs observe.)  It also panics for the same programs, namely for none. -/
theorem collected_as_passed_partial {ops : List Op} (P : HandsOver (fun _ => false) ops) :
    ∃ s c, Sys.run {} ops = some s ∧ Copying.run {} ops = some c ∧
      ∀ k, (s.stores k).contents s.arrays = c.stores k := by
  obtain ⟨c', hc, _⟩ := copying_runs ops {} fun _ => ⟨[], rfl⟩
  rcases shows_init.run P with ⟨_, h⟩ | ⟨s, c, _, h1, h2, S⟩
  · rw [hc] at h; cases h
  · exact ⟨s, c, h1, h2, S.contents⟩

/-- **C116** (a slice of one's own).  Such a program can go on to do what it likes with slices that it has not passed: nothing that is shown
changes. -/
theorem own_slices_not_shown_partial {ops : List Op} {op : Op} (P : HandsOver (fun _ => false) (ops ++ [op])) (hop : Op.isOwn op = true)
    {s s' : Sys} (h : Sys.run {} ops = some s) (h' : s.step op = some s') (k : Nat) (t : ID) :
    ((s'.stores k).contents s'.arrays).view t = ((s.stores k).contents s.arrays).view t := by
  obtain ⟨s1, c1, a1, a2, a3⟩ := collected_as_passed_partial (handsOver_left [op] ops _ P)
  obtain ⟨s2, c2, b1, b2, b3⟩ := collected_as_passed_partial P
  rw [h] at a1
  cases a1
  rw [sys_run_append, h] at b1
  simp only [Option.bind_some, Sys.run, h', Option.some.injEq] at b1
  subst b1
  rw [copying_run_append, a2] at b2
  rw [a3 k, b3 k]
  have : c2.stores = c1.stores := by
    cases op <;> simp only [Op.isOwn, Bool.false_eq_true] at hop <;>
      simp only [Option.bind_some, Copying.run, Copying.step, Option.some.injEq] at b2 <;> rw [← b2]
  rw [this]

/-- A span, for examples. -/
def sampleSpan : SpanID := ⟨1, 2, 0⟩

/-- An annotation, for examples. -/
def note (k v : Bytes) : Annotation := ⟨k, some v⟩

/-- A recorder (variable 0) records two events and finishes, another one (variable 1) for the same span finishes, then the first one records
another event. -/
def lateEvent : List Op :=
  [.append 0 [note b!"Name" b!"a"] 0, .append 0 [note b!"Msg" b!"b"] 1, .collect 0 sampleSpan 0 0,
   .append 1 [note b!"Msg" b!"c"] 0, .collect 0 sampleSpan 1 0]

/-- What the store shows before the late event, and afterwards: an event of the second recorder is lost, and the late event is there instead. -/
theorem late_event_replaces :
    ((Sys.run {} lateEvent).map fun s => ((s.stores 0).contents s.arrays).view 1) =
        some (.found (.node ⟨sampleSpan, [note b!"Name" b!"a", note b!"Msg" b!"b", note b!"Msg" b!"c"]⟩ [])) ∧
      ((Sys.run {} (lateEvent ++ [.append 0 [note b!"Msg" b!"d"] 0])).map fun s => ((s.stores 0).contents s.arrays).view 1) =
        some (.found (.node ⟨sampleSpan, [note b!"Name" b!"a", note b!"Msg" b!"b", note b!"Msg" b!"d"]⟩ [])) := by
  decide_cbv

/-- **C116**.  It does not hold for every program: an event recorded after `Finish` can replace an event of another recorder. -/
theorem shared_annotations_change : ¬ ShowWhatWasPassed := by
  intro h
  have e1 := late_event_replaces.2
  have e2 : ((Copying.run {} (lateEvent ++ [.append 0 [note b!"Msg" b!"d"] 0])).map fun c => (c.stores 0).view 1) =
        some (.found (.node ⟨sampleSpan, [note b!"Name" b!"a", note b!"Msg" b!"b", note b!"Msg" b!"c"]⟩ [])) := by decide_cbv
  cases hs : Sys.run {} (lateEvent ++ [.append 0 [note b!"Msg" b!"d"] 0]) with
  | none => rw [hs] at e1; simp at e1
  | some s =>
    cases hc : Copying.run {} (lateEvent ++ [.append 0 [note b!"Msg" b!"d"] 0]) with
    | none => rw [hc] at e2; simp at e2
    | some c =>
      rw [hs] at e1
      rw [hc] at e2
      simp only [Option.map_some, Option.some.injEq] at e1 e2
      have := h _ s c hs hc 0 1
      rw [e1, e2] at this
      exact absurd this (by decide)

/-- **C116**.  What a recorder records after `Finish` can be shown. -/
theorem shown_after_finish : ¬ NothingShownAfterFinish := by
  intro h
  obtain ⟨e1, e2⟩ := late_event_replaces
  cases hs : Sys.run {} lateEvent with
  | none => rw [hs] at e1; simp at e1
  | some s =>
    rw [hs] at e1
    rw [sys_run_append, hs] at e2
    simp only [Option.map_some, Option.some.injEq, Option.bind_some] at e1 e2
    cases hs' : s.step (.append 0 [note b!"Msg" b!"d"] 0) with
    | none => simp [Sys.run, hs'] at e2
    | some s' =>
      simp only [Sys.run, hs', Option.map_some, Option.some.injEq] at e2
      have := h [.append 0 [note b!"Name" b!"a"] 0, .append 0 [note b!"Msg" b!"b"] 1] [.append 1 [note b!"Msg" b!"c"] 0, .collect 0 sampleSpan 1 0]
        0 sampleSpan 0 0 0 _ s s' hs hs' 0 1
      rw [e1, e2] at this
      exact absurd this (by decide)

/-- A program that hands its slices over: a recorder records and finishes, through a chunked collector that gets more for the same span while
it flushes, and another one writes to the store directly; the variables are used again for new slices. -/
def handingOver : List Op :=
  [.append 0 [note b!"Name" b!"a"] 3, .append 1 [note b!"Msg" b!"x"] 0, .queue 0 sampleSpan 0 0, .queue 0 sampleSpan 1 0, .flush 0,
   .make 0 [note b!"Msg" b!"b"] 1, .write 0 0 (note b!"Msg" b!"c"), .queue 0 sampleSpan 0 0, .send 0 (0, sampleSpan) 0, .make 1 [note b!"Msg" b!"d"] 2,
   .collect 0 sampleSpan 1 0, .flush 0, .send 0 (1, sampleSpan) 0]

example : HandsOver (fun _ => false) handingOver := by simp [handingOver, HandsOver, upd]

example : ((Sys.run {} handingOver).map fun s => ((s.stores 0).contents s.arrays).view 1) =
    some (.found (.node ⟨sampleSpan, [note b!"Name" b!"a", note b!"Msg" b!"x", note b!"Msg" b!"d", note b!"Msg" b!"c"]⟩ [])) := by
  decide_cbv

/-- The late event is not of such a program. -/
example : ¬ HandsOver (fun _ => false) (lateEvent ++ [.append 0 [note b!"Msg" b!"d"] 0]) := by simp [lateEvent, HandsOver, upd]

end Appdash.Slices
