import Verif.Proofs.ChunkedSlow

/-! # Property C118: how long annotations wait in a chunked collector -/

namespace Appdash.Chunked

/-- The model with time does nothing that the model without time does not do, so everything proved of that (C13–C17) holds here. -/
theorem timed_refines {τ : Timing} {T : Timed} (h : TReachable τ T) : Reachable τ.cfg T.s := h.untimed

/-- **C118**.  With a time-out, a flush has returned after `FlushTimeout` and the time of one call of the underlying collector, however many
entries it has. -/
theorem flush_returns_in_time {τ : Timing} {T : Timed} (h : TReachable τ T) (h0 : τ.flushTimeout ≠ 0) (f : Flush) (hf : f ∈ T.s.flushes) :
    T.now ≤ T.start f.id + τ.flushTime := h.inv.flush_bound h0 hf

/-- **C118**.  `MinInterval` is what it says: the timer never fires twice within it. -/
theorem automatic_flushes_apart {τ : Timing} {T : Timed} (h : TReachable τ T) : T.ticks.Pairwise fun a b => a + τ.minInterval ≤ b := h.inv.apart

/-- **C118**, what holds: with a time-out, whatever calls come in between, everything accepted until some moment has been passed to the underlying
collector, or dropped with an error (C14), once the time for a running flush, `MinInterval` and one more flush is over, unless the collector
has been stopped.  Nobody has to call `Flush`, or `Collect` again. -/
theorem settled_in_time_partial {τ : Timing} {T T' : Timed} (h : TReachable τ T) (hs : TSteps τ T T') (h0 : τ.flushTimeout ≠ 0)
    (hst : T'.s.stopped = false) (hlate : T.now + τ.longest < T'.now) : Settled T T' := settled_in_time h hs h0 hst hlate

/-- For a `ChunkedCollector` made by `NewChunkedCollector`: 4.5 seconds, and the time of two calls of the underlying collector. -/
theorem default_settled_partial {collectTime delay : Nat} {T T' : Timed} (h : TReachable (defaultTiming collectTime delay) T)
    (hs : TSteps (defaultTiming collectTime delay) T T') (hst : T'.s.stopped = false)
    (hlate : T.now + 4500000000 + 2 * collectTime + 4 * delay < T'.now) : Settled T T' := by
  refine settled_in_time h hs (by simp [defaultTiming]) hst (Nat.lt_of_le_of_lt ?_ hlate)
  simp only [Timing.longest, Timing.flushTime, defaultTiming]
  omega

example (collectTime delay : Nat) : (defaultTiming collectTime delay).cfg = defaultCfg := rfl

/-- If nothing was dropped, everything has been passed on. -/
theorem delivered_in_time_partial {τ : Timing} {T T' : Timed} (h : TReachable τ T) (hs : TSteps τ T T') (h0 : τ.flushTimeout ≠ 0)
    (hst : T'.s.stopped = false) (hlate : T.now + τ.longest < T'.now) (hdrop : droppedItems T'.s.history = []) (x : Item) :
    (acceptedItems T.s.history).count x ≤ (deliveredItems T'.s.history).count x := by
  have := settled_in_time h hs h0 hst hlate x
  rw [hdrop] at this
  exact this

/-- **C118**.  The bounds are not met by stopping the clock: in every state, any amount of time can pass, without any further call.  (If the
timer takes no time at all it can fire again and again.) -/
theorem time_goes_on {τ : Timing} {T : Timed} (hτ : 0 < τ.minInterval + τ.delay) (h : TReachable τ T) (n : Nat) :
    ∃ T', TSteps τ T T' ∧ T.now + n ≤ T'.now ∧ T'.s.stopped = T.s.stopped ∧ acceptedItems T'.s.history = acceptedItems T.s.history := by
  obtain ⟨T', h1, h2⟩ := any_time hτ h n
  exact ⟨T', h1.steps, h2, h1.stopped, h1.accepted⟩

/-- With the defaults of `NewChunkedCollector`, a collector that takes at most a second, and goroutines that wait a millisecond at most, it is
less than seven seconds. -/
example : (defaultTiming 1000000000 1000000).longest < 7000000000 := by decide

/-- One unit of time for everything, no delays. -/
def unitTiming : Timing := ⟨1, 1, 0, 1, 0⟩

/-- Three spans, for the example. -/
def spanA : Delivery := (⟨1, 1, 0⟩, [⟨b!"a", none⟩])
@[inherit_doc spanA] def spanB : Delivery := (⟨1, 2, 0⟩, [⟨b!"b", none⟩])
@[inherit_doc spanA] def spanC : Delivery := (⟨1, 3, 0⟩, [⟨b!"c", none⟩])

/-- The background goroutine has begun to send two spans, and a third one has been collected. -/
def duringFlush : Timed where
  s := {
    started := true, stopChan := .opened, queueSize := 25, pending := [spanC], flushes := [⟨0, [spanA, spanB], []⟩], nextFlush := 1, bg := .flushing 0
    history := [.collect spanA .queued none, .collect spanB .queued none, .flushBegin 0, .collect spanC .queued none] }
  now := 1
  start := setAt (fun _ => 0) 0 1
  since := setAt (fun _ => 0) 0 1
  ticks := [1]

theorem duringFlush_reachable : TReachable unitTiming duringFlush := by
  have r1 := (TSteps.refl ({} : Timed)).step (.collect _ spanA : TStep unitTiming _ _)
  have r2 := r1.step (.collect _ spanB)
  have r3 := r2.step (.wait _ 1 ⟨(fun _ => by decide), (fun e h => by cases h), (fun f h => by cases h)⟩)
  have r4 := r3.step (.tick _ rfl (by decide))
  exact r4.step (.collect _ spanC)

/-- This flush has taken too long. -/
def afterFlush : Timed where
  s := {
    started := true, stopChan := .opened, queueSize := 25, pending := [spanC], nextFlush := 1, bg := .failed .queueDropped
    history := [.collect spanA .queued none, .collect spanB .queued none, .flushBegin 0, .collect spanC .queued none, .send 0 spanA none,
      .send 0 spanB none, .timeout 0 [], .flushEnd 0 (some .queueDropped)] }
  now := 3
  bgSince := 3
  start := setAt (fun _ => 0) 0 1
  since := setAt (setAt (setAt (fun _ => 0) 0 1) 0 2) 0 3
  ticks := [1]

theorem afterFlush_reached : TSteps unitTiming duringFlush afterFlush := by
  have q1 := (TSteps.refl duringFlush).step (.wait _ 1 ⟨(fun h => by cases h), (fun e h => by cases h), (fun f h => by
    cases List.mem_singleton.1 h; decide)⟩ : TStep unitTiming duringFlush _)
  have q2 := q1.step (.send _ ⟨0, [spanA, spanB], []⟩ [] [] spanA [] [spanB] none rfl rfl (by decide))
  have q3 := q2.step (.wait _ 1 ⟨(fun h => by cases h), (fun e h => by cases h), (fun f h => by
    cases List.mem_singleton.1 h; decide)⟩)
  have q4 := q3.step (.sendTimeout _ ⟨0, [spanB], []⟩ [] [] spanB [] [] none rfl rfl (by decide))
  exact q4.step (.bgFlushEnd _ ⟨0, [], [.queueDropped]⟩ [] [] rfl rfl rfl)

/-- The next flush has begun, and the third span is still not sent. -/
theorem waits_for_running_flush : ∃ T', TSteps unitTiming duringFlush T' ∧ T'.s.stopped = false ∧
    duringFlush.now + unitTiming.minInterval + unitTiming.delay + unitTiming.flushTime < T'.now ∧ ¬ Settled duringFlush T' := by
  have q6 := afterFlush_reached.step (.store _ .queueDropped rfl)
  have q7 := q6.step (.wait _ 1 ⟨(fun _ => by decide), (fun e h => by cases h), (fun f h => by cases h)⟩)
  have q8 := q7.step (.tick _ rfl (by decide))
  have q9 := q8.step (.wait _ 1 ⟨(fun h => by cases h), (fun e h => by cases h), (fun f h => by
    cases List.mem_singleton.1 h; decide)⟩)
  refine ⟨_, q9, rfl, by decide, fun h => ?_⟩
  exact absurd (h (⟨1, 3, 0⟩, ⟨b!"c", none⟩)) (by decide)

/-- **C118** is false of the code as documented: after `MinInterval` queued annotations need not be on their way, as the interval begins only when
the running flush has ended. -/
theorem not_passed_after_min_interval : ¬ PassedAfterMinInterval := by
  intro h
  obtain ⟨T', h2, h3, h4, h5⟩ := waits_for_running_flush
  exact h5 (h _ _ T' (by decide) duringFlush_reachable h2 h3 h4)

/-- **C118**.  Without a time-out (`FlushTimeout` 0) there is no bound at all, even if every call of the underlying collector takes one unit of
time: whatever `n` is, an annotation can be in the queue for that long. -/
theorem unbounded_without_timeout (n : Nat) (hn : n < 2 ^ 64 - 1) : ∃ T T', TReachable noTimeout T ∧ TSteps noTimeout T T' ∧ T'.s.stopped = false ∧
    T.now + n ≤ T'.now ∧ ¬ Settled T T' := by
  obtain ⟨T1, a1, a2, a3, a4, a5, a6, a7, a8⟩ := many_pending n hn
  have s1 : TStep noTimeout T1 { T1 with now := T1.now + 1 } :=
    .wait T1 1 ⟨(fun _ => by rw [a4, a5]; decide), (fun e h => by rw [a3] at h; cases h), (fun f hf => by rw [a6] at hf; cases hf)⟩
  have s2 := TStep.tick (τ := noTimeout) { T1 with now := T1.now + 1 } a3 (by show T1.bgSince + 1 ≤ T1.now + 1; rw [a4]; omega)
  have r2 := (a1.step s1).step s2
  have s3 := TStep.collect (τ := noTimeout) _ (⟨2, 1, 0⟩, [⟨b!"c", none⟩]) |> fun h => r2.step h
  obtain ⟨c1, c2, c3, c4, c5, c6, c7, -⟩ := collect_unbounded (s := { T1.s.flushBegin with bg := .flushing T1.s.nextFlush }) a7 (⟨2, 1, 0⟩, [⟨b!"c", none⟩])
  obtain ⟨T', k1, k2, k3⟩ := s3.slow n ⟨T1.s.nextFlush, T1.s.pending, []⟩ (c3.trans (by simp [State.flushBegin, a6]))
    (by have := congrArg List.length a2; simpa using this) (c7 a8) (show setAt _ _ _ _ = _ from setAt_self ..)
  refine ⟨_, T', s3, k1.steps, k1.stopped.trans c2, by omega, fun hs => ?_⟩
  have hx := hs (⟨2, 1, 0⟩, ⟨b!"c", none⟩)
  have hc := conserved (TReachable.untimed (TSteps.trans s3 k1.steps)) (⟨2, 1, 0⟩, ⟨b!"c", none⟩)
  have hq : (queuedItems T'.s).count (⟨2, 1, 0⟩, ⟨b!"c", none⟩) = 1 := by
    rw [queuedItems, k2]
    show List.count _ (List.flatMap items (State.collect noTimeout.cfg _ _).1.pending) = 1
    rw [c1]
    exact (show List.count ((⟨2, 1, 0⟩, ⟨b!"c", none⟩) : Item) (List.flatMap items (enqueue [] (⟨2, 1, 0⟩, [⟨b!"c", none⟩]))) = 1 by decide)
  rw [k1.accepted] at hc
  omega

end Appdash.Chunked
