import Verif.Proofs.Recorder

/-!
# Properties C37 and C38: `Recorder`

`(Recorder.new logger span).run env ops` makes the calls `ops` on a new recorder for the span `span`; its collector and
the clock are given by `env` and arbitrary.
-/

namespace Appdash

open Spec

/-- **C37**.  A call on the recorder sends to the collector, under the span ID of the recorder, what `sends` says — for
the first `Finish` the annotations of all events recorded before it, in order, in one call, and for an event nothing —
and, if it meets an error, a report of that error, and nothing else. -/
theorem recorder_calls (env : RecEnv) (logger : Bool) (span : SpanID) (before : List RecOp) (op : RecOp) :
    let calls := ((Recorder.new logger span).run env before).1.calls
    let sent := (sends before op).toList.map (Prod.mk span)
    ((Recorder.new logger span).run env (before ++ [op])).1.calls =
      calls ++ sent ++
        (meets env span before calls op).toList.map (fun e => (span, env.report (calls ++ sent) e.1 e.2)) := by
  intro calls sent
  rw [Recorder.run_snoc]
  have D := (does_run env logger span before op).calls
  rw [(follows_run env logger span before).span] at D
  exact D

theorem only_events_sent (env : RecEnv) (logger : Bool) (span : SpanID) (ops : List RecOp)
    (ha : ∀ as, RecOp.annotation as ∉ ops) (he : ∀ err, RecOp.event (.error err) ∉ ops)
    (hf : ops.any isFinish = false) : ((Recorder.new logger span).run env ops).1.calls = [] := by
  induction ops using List.reverseRecOn with
  | nil => rfl
  | append_singleton ops op ih =>
    have h := recorder_calls env logger span ops op
    simp only at h
    rw [List.any_append, Bool.or_eq_false_iff] at hf
    rw [h, ih (fun as hm => ha as (by simp [hm])) (fun err hm => he err (by simp [hm])) hf.1]
    cases op with
    | event as =>
      cases as with
      | error err => exact absurd (by simp) (he err)
      | ok as => rfl
    | annotation as => exact absurd (by simp) (ha as)
    | finish => simp [isFinish] at hf
    | errors => rfl

/-- **C37** (in the usual case).  If every event can be marshalled, `Annotation` is not used, `Finish` is called once and
the collector accepts the call, the collector gets exactly one call: the annotations of all events recorded before
`Finish`, in order. -/
theorem recorder_once (env : RecEnv) (logger : Bool) (span : SpanID) (before after : List RecOp)
    (ha : ∀ as, RecOp.annotation as ∉ before ++ after) (he : ∀ err, RecOp.event (.error err) ∉ before ++ after)
    (hb : before.any isFinish = false) (hf : after.any isFinish = false)
    (hc : env.answer [] (span, before.flatMap eventAnnotations) = none) :
    ((Recorder.new logger span).run env (before ++ .finish :: after)).1.calls =
      [(span, before.flatMap eventAnnotations)] := by
  induction after using List.reverseRecOn with
  | nil =>
    have h := recorder_calls env logger span before .finish
    have h0 := only_events_sent env logger span before (fun as hm => ha as (by simp [hm]))
      (fun err hm => he err (by simp [hm])) hb
    simp only [h0] at h
    rw [h]
    simp [sends, meets, hb, hc]
  | append_singleton after op ih =>
    rw [List.any_append, Bool.or_eq_false_iff] at hf
    have e : before ++ RecOp.finish :: (after ++ [op]) = (before ++ RecOp.finish :: after) ++ [op] := by simp
    have i := ih (fun as hm => ha as (by
        rcases List.mem_append.1 hm with h | h <;> simp [h])) (fun err hm => he err (by
        rcases List.mem_append.1 hm with h | h <;> simp [h])) hf.1
    have h := recorder_calls env logger span (before ++ RecOp.finish :: after) op
    simp only [i] at h
    rw [e, h]
    cases op with
    | event as =>
      cases as with
      | error err => exact absurd (by simp) (he err)
      | ok as => simp [sends, meets]
    | annotation as => exact absurd (by simp) (ha as)
    | finish => simp [isFinish] at hf
    | errors => simp [sends, meets]

/-- **C37** (without `Finish`).  If every event can be marshalled and neither `Annotation` nor `Finish` is called, the
collector is not called. -/
theorem recorder_unfinished (env : RecEnv) (logger : Bool) (span : SpanID) (ops : List RecOp)
    (ha : ∀ as, RecOp.annotation as ∉ ops) (he : ∀ err, RecOp.event (.error err) ∉ ops)
    (hf : ops.any isFinish = false) : ((Recorder.new logger span).run env ops).1.calls = [] :=
  only_events_sent env logger span ops ha he hf

theorem metErrors_snoc (env : RecEnv) (logger : Bool) (span : SpanID) (ops : List RecOp) (op : RecOp) :
    metErrors env logger span (ops ++ [op]) = metErrors env logger span ops ++
      (meets env span ops ((Recorder.new logger span).run env ops).1.calls op).toList := by
  unfold Spec.metErrors
  rw [List.length_append, List.length_singleton, List.range_succ, List.flatMap_append]
  congr 1
  · simp only [List.flatMap]
    congr 1
    apply List.map_congr_left
    intro i hi
    rw [List.mem_range] at hi
    rw [List.getElem?_append_left hi, List.take_append_of_le_length (by omega)]
  · simp

/-- **C38** (no `Logger`).  All errors that `Errors` calls have returned, in order, followed by those that the next
`Errors` call would return, are all errors met, in order, each once; nothing is logged. -/
theorem recorder_errors (env : RecEnv) (span : SpanID) (ops : List RecOp) :
    let (r, returned) := (Recorder.new false span).run env ops
    returned ++ r.takeErrors.2 = (metErrors env false span ops).map Prod.snd ∧ r.logged = [] := by
  simp only [Recorder.takeErrors]
  induction ops using List.reverseRecOn with
  | nil => exact ⟨rfl, rfl⟩
  | append_singleton ops op ih =>
    rw [Recorder.run_snoc, metErrors_snoc]
    have D := does_run env false span ops op
    have F := follows_run env false span ops
    obtain ⟨i1, i2⟩ := ih
    have d1 := D.errors
    have d2 := D.logged
    rw [F.logger, F.span] at d1
    rw [F.logger, i2] at d2
    refine ⟨?_, d2⟩
    simp only [Bool.false_eq_true, if_false] at d1
    rw [List.append_assoc, d1, ← List.append_assoc, i1, List.map_append]

/-- **C38** (an `Errors` call returns everything that has not been returned yet, and nothing remains). -/
theorem recorder_errors_call (env : RecEnv) (logger : Bool) (span : SpanID) (ops : List RecOp) :
    ((Recorder.new logger span).run env (ops ++ [.errors])).1.takeErrors.2 = [] ∧
    ((Recorder.new logger span).run env (ops ++ [.errors])).2 =
      ((Recorder.new logger span).run env ops).2 ++ ((Recorder.new logger span).run env ops).1.takeErrors.2 := by
  rw [Recorder.run_snoc]
  exact ⟨rfl, rfl⟩

/-- **C38** (with a `Logger`).  The errors logged are all errors met, in order, each once; `Errors` calls return none. -/
theorem recorder_logged (env : RecEnv) (span : SpanID) (ops : List RecOp) :
    let (r, returned) := (Recorder.new true span).run env ops
    r.logged = metErrors env true span ops ∧ returned = [] ∧ r.takeErrors.2 = [] := by
  simp only [Recorder.takeErrors]
  induction ops using List.reverseRecOn with
  | nil => exact ⟨rfl, rfl, rfl⟩
  | append_singleton ops op ih =>
    rw [Recorder.run_snoc, metErrors_snoc]
    have D := does_run env true span ops op
    have F := follows_run env true span ops
    obtain ⟨i1, i2, i3⟩ := ih
    have d1 := D.errors
    have d2 := D.logged
    rw [F.logger, i3] at d1
    rw [F.logger, F.span, i1] at d2
    simp only [if_true, List.append_nil] at d1
    obtain ⟨d3, d4⟩ := List.append_eq_nil_iff.1 d1
    exact ⟨d2, by simp only; rw [i2, d3]; rfl, d4⟩

/-- A recorder with a failing collector: two events, two `Finish` calls and an `Errors` call between them. -/
example :
    let env : RecEnv := ⟨fun _ _ => some (.other [1]), fun _ _ _ => [⟨[2], none⟩]⟩
    let ops : List RecOp := [.event (.ok [⟨[3], none⟩]), .event (.ok [⟨[4], none⟩]), .finish, .errors, .finish]
    ((Recorder.new false ⟨1, 1, 0⟩).run env ops).1.calls =
        [(⟨1, 1, 0⟩, [⟨[3], none⟩, ⟨[4], none⟩]), (⟨1, 1, 0⟩, [⟨[2], none⟩]), (⟨1, 1, 0⟩, [⟨[2], none⟩])] ∧
      ((Recorder.new false ⟨1, 1, 0⟩).run env ops).2 = [.other [1]] ∧
      (metErrors env false ⟨1, 1, 0⟩ ops).map Prod.snd = [.other [1], .multipleFinish] := by decide

/-- The hypotheses of `recorder_once` are met with events before and after `Finish`. -/
example : ∃ (env : RecEnv) (before after : List RecOp), (∀ as, RecOp.annotation as ∉ before ++ after) ∧
    (∀ err, RecOp.event (.error err) ∉ before ++ after) ∧ before.any isFinish = false ∧ after.any isFinish = false ∧
    env.answer [] (⟨1, 1, 0⟩, before.flatMap eventAnnotations) = none ∧
    before.flatMap eventAnnotations = [⟨[3], none⟩] ∧ after.flatMap eventAnnotations = [⟨[4], none⟩] :=
  ⟨⟨fun _ _ => none, fun _ _ _ => []⟩, [.event (.ok [⟨[3], none⟩])], [.event (.ok [⟨[4], none⟩]), .errors],
    by simp, by simp, rfl, rfl, rfl, rfl, rfl⟩

end Appdash
