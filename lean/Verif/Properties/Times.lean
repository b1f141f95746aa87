import Verif.Proofs.Times
import Verif.Proofs.EventLibrary

/-!
# Properties of a span's time bounds

C42 the bounds of ordinary times; C64 the stronger expectation that does not hold.
-/

namespace Appdash

/-! ## The calendar

These four facts determine `GoTime.days`, so that `GoTime.instant` is what it should be. -/

theorem days_epoch : GoTime.days 1970 1 1 = 0 := by decide

theorem days_next_day (y m d : Nat) : GoTime.days y m (d + 1) = GoTime.days y m d + 1 := by
  simp only [GoTime.days]; omega

theorem days_next_month (y m : Nat) (h1 : 1 ≤ m) (h2 : m < 12) :
    GoTime.days y (m + 1) 1 = GoTime.days y m (daysIn y m) + 1 := by
  have hm : m = 1 ∨ m = 2 ∨ m = 3 ∨ m = 4 ∨ m = 5 ∨ m = 6 ∨ m = 7 ∨ m = 8 ∨ m = 9 ∨ m = 10 ∨ m = 11 := by omega
  rcases hm with rfl | rfl | rfl | rfl | rfl | rfl | rfl | rfl | rfl | rfl | rfl
  case inr.inl =>
    simp only [GoTime.days, daysIn, isLeap]
    by_cases h4 : y % 4 = 0 <;> by_cases h100 : y % 100 = 0 <;> by_cases h400 : y % 400 = 0 <;>
      simp [h4, h100, h400] <;> omega
  all_goals
    simp only [GoTime.days, daysIn]
    simp
    try omega

theorem days_next_year (y : Nat) : GoTime.days (y + 1) 1 1 = GoTime.days y 12 31 + 1 := by
  simp only [GoTime.days]
  simp
  omega

/-- The clock: the epoch is 1 January 1970, and later fields and zones east of Greenwich change it as they should. -/
theorem instant_clock (t : GoTime) :
    GoTime.instant ⟨1970, 1, 1, 0, 0, 0, 0, 0⟩ = 0 ∧
    GoTime.instant { t with nsec := t.nsec + 1 } = t.instant + 1 ∧
    GoTime.instant { t with sec := t.sec + 1 } = t.instant + 1000000000 ∧
    GoTime.instant { t with min := t.min + 1 } = t.instant + 60 * 1000000000 ∧
    GoTime.instant { t with hour := t.hour + 1 } = t.instant + 3600 * 1000000000 ∧
    GoTime.instant { t with off := t.off + 1 } = t.instant - 60 * 1000000000 ∧
    GoTime.instant { t with day := t.day + 1 } = t.instant + 86400 * 1000000000 := by
  refine ⟨by decide, ?_, ?_, ?_, ?_, ?_, ?_⟩ <;> simp only [GoTime.instant, days_next_day] <;> push_cast <;> omega

/-! ## C42 -/

/-- Property C42.  For a span that carries the annotations of recorded events whose times are ordinary, `Trace.TimespanEvent`
returns the earliest start and the latest end of all its timespan events, and an error if and only if there is none. -/
theorem timespan_bounds (reg : Registry) (ps : Pieces) (h : ps.Recorded reg)
    (ho : ∀ p ∈ spansOf ps.events, p.1.Ordinary ∧ p.2.Ordinary) :
    (spansOf ps.events = [] ∧ traceTimespan reg ps.all = some (.error .notFound)) ∨
      ∃ s e, traceTimespan reg ps.all = some (.ok (s, e)) ∧ Bounds (spansOf ps.events) s e := by
  have hl : ∀ evs : List (EventType × GVal),
      (evs.filterMap fun e => (e.1.span e.2).map fun p => (e.1.schema, p)).map Prod.snd = spansOf evs := by
    intro evs
    induction evs with
    | nil => rfl
    | cons e evs ih =>
      simp only [spansOf] at ih
      simp only [spansOf, List.filterMap_cons]
      cases e.1.span e.2 with
      | none => simpa using ih
      | some p => simpa using ih
  have hs := spanTimes_recorded reg ps h
  generalize hts : (ps.events.filterMap fun e => (e.1.span e.2).map fun p => (e.1.schema, p)) = ts at hs
  have hm := hl ps.events
  rw [hts] at hm
  simp only [traceTimespan, hs]
  by_cases hne : ts = []
  · left
    subst hne
    exact ⟨by simpa using hm.symm, rfl⟩
  · right
    obtain ⟨s, e, h1, h2⟩ := findTraceTimes_ordinary ts (by
      intro p hp
      have := ho p.2 (hm ▸ List.mem_map.2 ⟨p, hp, rfl⟩)
      exact ⟨this.1, this.2.2⟩) hne
    refine ⟨s, e, ?_, hm ▸ h2⟩
    rw [h1]; rfl

/-- Property C42, for every annotation list, however it came about: the result depends on the timespan events among what
`UnmarshalEvents` returns. -/
theorem timespan_bounds_any (reg : Registry) (as : List Annotation) (ts : List (Bytes × GoTime × GoTime))
    (h : spanTimes reg as = some (.ok ts)) (ho : ∀ p ∈ ts, p.2.1.Ordinary ∧ p.2.2.Ordinary) :
    (ts = [] ∧ traceTimespan reg as = some (.error .notFound)) ∨
      ∃ s e, traceTimespan reg as = some (.ok (s, e)) ∧ Bounds (ts.map Prod.snd) s e := by
  simp only [traceTimespan, h]
  by_cases hne : ts = []
  · subst hne; exact .inl ⟨rfl, rfl⟩
  · right
    obtain ⟨s, e, h1, h2⟩ := findTraceTimes_ordinary ts (fun p hp => ⟨(ho p hp).1, (ho p hp).2.2⟩) hne
    exact ⟨s, e, by rw [h1]; rfl, h2⟩

/-- A client and a server event cannot be small; a `Timespan` and a `timespan` on one span are enough. -/
def sampleSpans : Pieces :=
  [(some (timespan, .struct [.scalar (.time ⟨2015, 1, 1, 0, 0, 2, 0, 0⟩), .scalar (.time ⟨2015, 1, 1, 0, 0, 3, 0, 0⟩)]),
      [⟨b!"Span.Start", some b!"2015-01-01T00:00:02Z"⟩, ⟨b!"Span.End", some b!"2015-01-01T00:00:03Z"⟩, ⟨b!"_schema:Timespan", none⟩]),
    (none, [⟨b!"other", some b!"x"⟩, ⟨b!"_schema:unknown", none⟩]),
    (some (timespanEvent, .struct [.scalar (.time ⟨2015, 1, 1, 1, 0, 1, 0, 60⟩), .scalar (.time ⟨2015, 1, 1, 0, 0, 2, 0, 0⟩)]),
      [⟨b!"E", some b!"2015-01-01T00:00:02Z"⟩, ⟨b!"S", some b!"2015-01-01T01:00:01+01:00"⟩, ⟨b!"_schema:timespan", none⟩])]

theorem sampleSpans_recorded (reg : Registry) (hreg : registerAll libraryEvents [] = some reg) :
    sampleSpans.Recorded reg := by
  obtain ⟨reg', hreg', hget⟩ := library_registers
  rw [hreg] at hreg'
  cases Option.some.inj hreg'
  have hu : AMap.get reg b!"unknown" = none := by
    cases hreg; rfl
  refine ⟨?_, ?_, ?_, ?_, ?_, ?_⟩
  · intro p hp E v hpe
    simp only [sampleSpans, List.mem_cons, List.not_mem_nil, or_false] at hp
    rcases hp with rfl | rfl | rfl
    · simp only [Option.some.injEq, Prod.mk.injEq] at hpe
      obtain ⟨rfl, rfl⟩ := hpe
      exact ⟨_, List.Perm.refl _, rfl⟩
    · simp at hpe
    · simp only [Option.some.injEq, Prod.mk.injEq] at hpe
      obtain ⟨rfl, rfl⟩ := hpe
      exact ⟨[(b!"E", b!"2015-01-01T00:00:02Z"), (b!"S", b!"2015-01-01T01:00:01+01:00")], List.Perm.swap .., rfl⟩
  · intro e he
    simp only [sampleSpans, Pieces.events, List.filterMap_cons, List.filterMap_nil, List.mem_cons, List.not_mem_nil,
      or_false] at he
    rcases he with rfl | rfl
    · exact library_conforms (by simp [libraryEvents]) (by decide)
    · exact library_conforms (by simp [libraryEvents]) (by decide)
  · intro e he
    simp only [sampleSpans, Pieces.events, List.filterMap_cons, List.filterMap_nil, List.mem_cons, List.not_mem_nil,
      or_false] at he
    rcases he with rfl | rfl <;> exact hget _ (by simp [libraryEvents])
  · simp only [sampleSpans, Pieces.events, List.filterMap_cons, List.filterMap_nil, List.pairwise_cons, List.mem_cons,
      List.not_mem_nil, or_false, forall_eq, List.Pairwise.nil, and_true, false_imp_iff, implies_true]
    unfold EventType.apart
    decide
  · intro p hp hn a ha e he
    simp only [sampleSpans, List.mem_cons, List.not_mem_nil, or_false] at hp
    simp only [sampleSpans, Pieces.events, List.filterMap_cons, List.filterMap_nil, List.mem_cons, List.not_mem_nil,
      or_false] at he
    rcases hp with rfl | rfl | rfl
    · simp at hn
    · simp only [List.mem_cons, List.not_mem_nil, or_false] at ha
      rcases he with rfl | rfl <;> rcases ha with rfl | rfl <;> decide
    · simp at hn
  · intro p hp hn a ha s hs
    simp only [sampleSpans, List.mem_cons, List.not_mem_nil, or_false] at hp
    rcases hp with rfl | rfl | rfl
    · simp at hn
    · simp only [List.mem_cons, List.not_mem_nil, or_false] at ha
      rcases ha with rfl | rfl
      · simp [schemaPrefix] at hs
      · simp only [schemaPrefix, List.cons_append, List.nil_append, List.cons.injEq, true_and] at hs
        rw [← hs]; exact hu
    · simp at hn

example (reg : Registry) (hreg : registerAll libraryEvents [] = some reg) :
    sampleSpans.Recorded reg ∧ (∀ p ∈ spansOf sampleSpans.events, p.1.Ordinary ∧ p.2.Ordinary) ∧
      traceTimespan reg sampleSpans.all =
        some (.ok (⟨2015, 1, 1, 1, 0, 1, 0, 60⟩, ⟨2015, 1, 1, 0, 0, 3, 0, 0⟩)) := by
  refine ⟨sampleSpans_recorded reg hreg, by unfold GoTime.Ordinary; decide, ?_⟩
  simp only [traceTimespan, spanTimes_recorded reg sampleSpans (sampleSpans_recorded reg hreg)]
  decide

/-! ## C64: times that are zero or out of range -/

/-- Property C64, in full: whatever the times. -/
def TimespanAlwaysBounds : Prop :=
  ∀ (reg : Registry), registerAll libraryEvents [] = some reg → ∀ ps : Pieces, ps.Recorded reg →
    (∀ e ∈ ps.events, e.1 ∈ libraryEvents) →
    (spansOf ps.events = [] ∧ traceTimespan reg ps.all = some (.error .notFound)) ∨
      ∃ s e, traceTimespan reg ps.all = some (.ok (s, e)) ∧ Bounds (spansOf ps.events) s e

/-- If the first of two timespan events has a zero start, its end is forgotten, although it is the latest. -/
theorem zero_start_forgotten (n m : Bytes) (s e : GoTime) (late : GoTime) :
    findTraceTimes [(n, .zero, late), (m, s, e)] = (s, e, !s.isZero) := by
  simp only [findTraceTimes, findTraceTimesLoop, zero_isZero, if_true]

/-- A time after 2262 counts as earlier than one of 2015: its `UnixNano` has wrapped around. -/
theorem far_future_is_earlier (n m : Bytes) :
    findTraceTimes [(n, ⟨2015, 1, 1, 0, 0, 0, 0, 0⟩, ⟨2015, 1, 1, 0, 0, 1, 0, 0⟩), (m, ⟨2300, 1, 1, 0, 0, 0, 0, 0⟩, ⟨2300, 1, 1, 0, 0, 1, 0, 0⟩)] =
      (⟨2300, 1, 1, 0, 0, 0, 0, 0⟩, ⟨2015, 1, 1, 0, 0, 1, 0, 0⟩, true) := by
  simp only [findTraceTimes, findTraceTimesLoop, zero_isZero, if_true]
  decide

/-- Property C64 is false of the code: a span whose only timespan event has a zero start gets an error. -/
theorem timespan_always_bounds_false : ¬ TimespanAlwaysBounds := by
  intro h
  obtain ⟨reg, hreg, hget⟩ := library_registers
  let v : GVal := .struct [.scalar (.time .zero), .scalar (.time ⟨2015, 1, 1, 0, 0, 1, 0, 0⟩)]
  let as : List Annotation := (flatten timespan.type [] v).map annotationOf ++ [schemaMarker timespan.schema]
  let ps : Pieces := [(some (timespan, v), as)]
  have hlib : timespan ∈ libraryEvents := by simp [libraryEvents]
  have hrec : ps.Recorded reg := by
    refine ⟨?_, ?_, ?_, ?_, ?_, ?_⟩
    · intro p hp E w hpe
      simp only [ps, List.mem_singleton] at hp
      subst hp
      simp only [Option.some.injEq, Prod.mk.injEq] at hpe
      obtain ⟨rfl, rfl⟩ := hpe
      exact ⟨_, List.Perm.refl _, rfl⟩
    · intro e he
      simp only [ps, Pieces.events, List.filterMap_cons, List.filterMap_nil, List.mem_singleton] at he
      subst he
      exact library_conforms hlib (by decide)
    · intro e he
      simp only [ps, Pieces.events, List.filterMap_cons, List.filterMap_nil, List.mem_singleton] at he
      subst he
      exact hget _ hlib
    · simp [ps, Pieces.events]
    · intro p hp hn
      simp only [ps, List.mem_singleton] at hp
      subst hp
      simp at hn
    · intro p hp hn
      simp only [ps, List.mem_singleton] at hp
      subst hp
      simp at hn
  have ht := spanTimes_recorded reg ps hrec
  rcases h reg hreg ps hrec (by
      intro e he
      simp only [ps, Pieces.events, List.filterMap_cons, List.filterMap_nil, List.mem_singleton] at he
      subst he
      exact hlib) with ⟨h1, _⟩ | ⟨s, e, h1, _⟩
  · simp [ps, v, spansOf, Pieces.events, EventType.span, timespan, GVal.fields] at h1
  · have : traceTimespan reg ps.all = some (.error .notFound) := by
      simp only [traceTimespan, ht]
      decide
    rw [this] at h1
    simp at h1

/-- Property C64, proved part: all times are ordinary. -/
theorem timespan_always_bounds_partial (reg : Registry) (ps : Pieces) (h : ps.Recorded reg)
    (ho : ∀ p ∈ spansOf ps.events, p.1.Ordinary ∧ p.2.Ordinary) :
    (spansOf ps.events = [] ∧ traceTimespan reg ps.all = some (.error .notFound)) ∨
      ∃ s e, traceTimespan reg ps.all = some (.ok (s, e)) ∧ Bounds (spansOf ps.events) s e :=
  timespan_bounds reg ps h ho

end Appdash
