import Verif.Proofs.OpenTracingShown
import Verif.Proofs.OpenTracingLogs

/-!
# C119 and C120: what the store shows of a program that is traced with OpenTracing
-/

namespace Appdash
open Spec

/-- **C119**.  A program's spans are recorded with one tracer, from any number of goroutines at once, into a store.  When the calls of
`Finish` have returned, `Trace` returns the tree of the program's spans, and the annotations of each span in it are a record of the span:
its name, its logs, its tags, its baggage and its times, whatever they are. -/
theorem opentracing_program_shown {env : OTEnv} {verbose : Bool} {s : OTState} (h : OTReach env verbose s)
    (hret : ∀ t ∈ s.threads, t.2 = []) (hok : ∀ c ∈ s.calls, c.answer = none) {tr : Tree} (hT : TracedAs (finishedSpans s) tr)
    {ops : List StoreOp} {ms : MemStore} (hms : MemStore.new.run ops = some ms)
    (hL : live tr.span.id.trace ops = forTrace tr.span.id.trace (collectedBy s)) :
    ∃ tr', ms.view tr.span.id.trace = .found tr' ∧ TreeEquiv (reannotate (fun _ => []) tr') (reannotate (fun _ => []) tr) ∧
      ∀ sp ∈ finishedSpans s, sp.trace = tr.span.id.trace → ∃ u ∈ tr'.spans, u.id = spanIDOf sp ∧ ShowsSpan env sp u.annotations :=
  opentracing_view h hret hok hT hms (fun e he => ⟨e, (List.mem_filter.1 (hL ▸ he)).1, rfl⟩) (fun e he => ⟨e, hL ▸ he, rfl⟩)
    (fun u _ => by rw [hL])

/-- **C119** (through a `ChunkedCollector`).  The same holds if the tracer writes to a `ChunkedCollector` in front of the store and all it
accepted has been handed on, by one flush at a time. -/
theorem opentracing_program_shown_chunked {env : OTEnv} {verbose : Bool} {s : OTState} (h : OTReach env verbose s)
    (hret : ∀ t ∈ s.threads, t.2 = []) (hok : ∀ c ∈ s.calls, c.answer = none) {tr : Tree} (hT : TracedAs (finishedSpans s) tr)
    {cfg : Chunked.Cfg} {cs : Chunked.State} (hc : Chunked.Reachable cfg cs)
    (ha : forTrace tr.span.id.trace (Chunked.acceptedCalls cs.history) = forTrace tr.span.id.trace (collectedBy s))
    (ho : Chunked.OneAtATime cs.history) (hq : cs.pending = []) (hf : ∀ F ∈ cs.flushes, F.remaining = [])
    (hd : Chunked.droppedCalls cs.history = []) {ops : List StoreOp} {ms : MemStore} (hms : MemStore.new.run ops = some ms)
    (hL : live tr.span.id.trace ops = forTrace tr.span.id.trace (Chunked.deliveredCalls cs.history)) :
    ∃ tr', ms.view tr.span.id.trace = .found tr' ∧ TreeEquiv (reannotate (fun _ => []) tr') (reannotate (fun _ => []) tr) ∧
      ∀ sp ∈ finishedSpans s, sp.trace = tr.span.id.trace → ∃ u ∈ tr'.spans, u.id = spanIDOf sp ∧ ShowsSpan env sp u.annotations := by
  have hids : ∀ id, id ∈ (forTrace tr.span.id.trace (Chunked.deliveredCalls cs.history)).map Prod.fst ↔
      id ∈ (forTrace tr.span.id.trace (collectedBy s)).map Prod.fst := by
    intro id
    rw [← ha, mem_forTrace_ids, mem_forTrace_ids, Chunked.ids_conserved hc, hq, hd]
    have : ¬ ∃ f ∈ cs.flushes, id ∈ f.remaining.map Prod.fst := by
      rintro ⟨f, h1, h2⟩
      rw [hf f h1] at h2; cases h2
    simp only [this, List.map_nil, List.not_mem_nil, false_or, or_false]
  have hknown : ∀ e ∈ collectedBy s, e.1.trace = tr.span.id.trace → ∃ v ∈ tr.spans, e.1 = v.id := by
    intro e he ht
    obtain ⟨c, hc', rfl⟩ := List.mem_map.1 he
    obtain ⟨i, sp, acts, hi, -, hid, -⟩ := call_thread h hc'
    simp only at ht
    have : spanIDOf sp ∈ tr.spans.map Span.id := hT.spans.subset (List.mem_map.2
      ⟨sp, List.mem_filter.2 ⟨List.mem_map.2 ⟨_, List.mem_of_getElem? hi, rfl⟩, by
        rw [hid] at ht; simpa using show sp.trace = _ from ht⟩, rfl⟩)
    obtain ⟨v, hv, e⟩ := List.mem_map.1 this
    exact ⟨v, hv, by rw [e]; exact hid⟩
  have hknown' : ∀ L : List Entry, (∀ id, id ∈ (forTrace tr.span.id.trace L).map Prod.fst →
      id ∈ (forTrace tr.span.id.trace (collectedBy s)).map Prod.fst) →
      ∀ e ∈ L, e.1.trace = tr.span.id.trace → ∃ v ∈ tr.spans, e.1 = v.id := by
    intro L hL e he ht
    obtain ⟨e', he', ee⟩ := List.mem_map.1 (hL e.1 (List.mem_map.2 ⟨e, List.mem_filter.2 ⟨he, by simpa using ht⟩, rfl⟩))
    obtain ⟨v, hv, ev⟩ := hknown e' (List.mem_filter.1 he').1 (by rw [ee]; exact ht)
    exact ⟨v, hv, by rw [← ee, ev]⟩
  refine opentracing_view h hret hok hT hms ?_ ?_ ?_
  · intro e he
    rw [hL] at he
    obtain ⟨e', he', ee⟩ := List.mem_map.1 ((hids e.1).1 (List.mem_map.2 ⟨e, he, rfl⟩))
    exact ⟨e', (List.mem_filter.1 he').1, ee.symm⟩
  · intro e he
    obtain ⟨e', he', ee⟩ := List.mem_map.1 ((hids e.1).2 (List.mem_map.2 ⟨e, he, rfl⟩))
    exact ⟨e', hL ▸ he', ee⟩
  · intro u hu
    rw [hL, ← ha, annotationsOf_wholeID hT.tree hu _ (hknown' _ fun id => (hids id).1),
      annotationsOf_wholeID hT.tree hu _ (hknown' _ fun id hid => ha ▸ hid)]
    exact Chunked.all_in_order_partial cfg cs hc ho hq hf hd u.id

/-- **C119** (unsampled).  The store has nothing of a trace whose spans are not sampled. -/
theorem unsampled_trace_absent {env : OTEnv} {verbose : Bool} {s : OTState} (h : OTReach env verbose s) (t : ID)
    (hu : ∀ sp ∈ finishedSpans s, sp.trace = t → sp.sampled = false) {ops : List StoreOp} {ms : MemStore}
    (hms : MemStore.new.run ops = some ms) (hL : live t ops = forTrace t (collectedBy s)) : ms.view t = .notFound := by
  have : live t ops = [] := by
    rw [hL, forTrace, List.filter_eq_nil_iff]
    intro e he
    obtain ⟨c, hc, rfl⟩ := List.mem_map.1 he
    obtain ⟨i, sp, acts, hi, -, hid, hs⟩ := call_thread h hc
    simp only [hid, spanIDOf, decide_eq_true_eq]
    intro ht
    rw [hu sp (List.mem_map.2 ⟨_, List.mem_of_getElem? hi, rfl⟩) ht] at hs
    cases hs
  rcases trace_finite_tree hms t with ⟨-, hn⟩ | ⟨hne, -⟩
  · exact hn
  · exact absurd this hne

/-- **C119** (what is read).  From a record of a span one reads its name; every tag and every baggage item is in it; and its times are read
back. -/
theorem shown_span {env : OTEnv} {sp : RawSpan} {as : List Annotation} (h : ShowsSpan env sp as) :
    annotationsName as = sp.operation ∧ (∀ e, e ∈ sp.tags ∨ e ∈ sp.baggage → ⟨e.1, some e.2⟩ ∈ as) ∧
      (TimesHold env sp → unmarshalEvent timespan as timespan.type.zero =
        some (.struct [.scalar (.time sp.start), .scalar (.time (env.add sp.start sp.duration))], none)) := by
  obtain ⟨calls, h1, rfl⟩ := h
  refine ⟨recordsAll_name env sp calls h1, fun e he => recordsAll_tags env sp calls h1 e he, fun ht => ?_⟩
  exact recordsAll_times env sp calls h1 (by
    simp [timespan, GType.holds, holdsAll, tTime, ht.1, ht.2.1])

/-! ## A program with two spans -/

/-- A request without logs; its only tag is called `Name`. -/
def requestSpan : RawSpan :=
  { sampled := true, trace := 1, span := 5, parent := 0, operation := b!"GET", start := ⟨2016, 1, 2, 3, 4, 5, 0, 0⟩, duration := 9, logs := []
    tags := [(b!"Name", b!"home")], baggage := [] }

/-- A query below it, with two logs. -/
def querySpan : RawSpan :=
  { sampled := true, trace := 1, span := 6, parent := 5, operation := b!"query", start := ⟨2016, 1, 2, 3, 4, 5, 2, 0⟩, duration := 5
    logs := [⟨⟨2016, 1, 2, 3, 4, 5, 3, 0⟩, [[(b!"event", b!"sent")]]⟩, ⟨⟨2016, 1, 2, 3, 4, 5, 4, 0⟩, [[(b!"event", b!"done")]]⟩]
    tags := [(b!"rows", b!"3")], baggage := [(b!"user", b!"x")] }

/-- A span of another trace, which is not sampled. -/
def otherSpan : RawSpan := { requestSpan with sampled := false, trace := 2 }

def requestCalls : List (List Annotation) :=
  [[⟨b!"Name", some b!"GET"⟩, ⟨b!"_schema:name", none⟩], [⟨b!"Name", some b!"home"⟩],
   [⟨b!"Span.Start", some b!"2016-01-02T03:04:05Z"⟩, ⟨b!"Span.End", some b!"2016-01-02T03:04:05.000000009Z"⟩,
    ⟨b!"_schema:Timespan", none⟩]]

def queryCalls : List (List Annotation) :=
  [[⟨b!"Name", some b!"query"⟩, ⟨b!"_schema:name", none⟩],
   [⟨b!"Msg", some b!"sent"⟩, ⟨b!"Time", some b!"2016-01-02T03:04:05.000000003Z"⟩, ⟨b!"_schema:log", none⟩],
   [⟨b!"Msg", some b!"done"⟩, ⟨b!"Time", some b!"2016-01-02T03:04:05.000000004Z"⟩, ⟨b!"_schema:log", none⟩],
   [⟨b!"rows", some b!"3"⟩], [⟨b!"user", some b!"x"⟩],
   [⟨b!"Span.Start", some b!"2016-01-02T03:04:05.000000002Z"⟩, ⟨b!"Span.End", some b!"2016-01-02T03:04:05.000000007Z"⟩,
    ⟨b!"_schema:Timespan", none⟩]]

theorem request_recorded : RecordSpan sampleOTEnv requestSpan (requestCalls.map OTAct.collect) :=
  ⟨_, [], _, _, _, ⟨_, ⟨_, .refl _, rfl⟩, rfl⟩, .nil, .refl _, .refl _, ⟨_, ⟨_, .refl _, rfl⟩, rfl⟩, rfl⟩

theorem query_recorded : RecordSpan sampleOTEnv querySpan (queryCalls.map OTAct.collect) :=
  ⟨_, [_, _], _, _, _, ⟨_, ⟨_, .refl _, rfl⟩, rfl⟩, .cons ⟨_, ⟨_, .refl _, rfl⟩, rfl⟩ (.cons ⟨_, ⟨_, .refl _, rfl⟩, rfl⟩ .nil),
    .refl _, .refl _, ⟨_, ⟨_, .refl _, rfl⟩, rfl⟩, rfl⟩

/-- The calls of the two goroutines, mixed. -/
def mixedCalls : List OTCall :=
  let r (k : Nat) : OTCall := ⟨0, ⟨1, 5, 0⟩, requestCalls.getD k [], none, none⟩
  let q (k : Nat) : OTCall := ⟨1, ⟨1, 6, 5⟩, queryCalls.getD k [], none, none⟩
  [q 0, r 0, q 1, r 1, q 2, q 3, q 4, r 2, q 5]

/-- The state in which all have returned. -/
def afterProgram : OTState := ⟨false, false, [(requestSpan, []), (querySpan, []), (otherSpan, [])], mixedCalls, []⟩

theorem afterProgram_reached : OTReach sampleOTEnv false afterProgram :=
  .step (.step (.step (.step (.step (.step (.step (.step (.step (.step (.step (.step .new
    (.start _ _ _ request_recorded)) (.start _ _ _ query_recorded)) (.start _ otherSpan [] rfl))
    (.collect _ 1 _ _ _ none rfl)) (.collect _ 0 _ _ _ none rfl)) (.collect _ 1 _ _ _ none rfl)) (.collect _ 0 _ _ _ none rfl))
    (.collect _ 1 _ _ _ none rfl)) (.collect _ 1 _ _ _ none rfl)) (.collect _ 1 _ _ _ none rfl)) (.collect _ 0 _ _ _ none rfl))
    (.collect _ 1 _ _ _ none rfl)

/-- The tree of the program. -/
def programTree : Tree := .node ⟨⟨1, 5, 0⟩, []⟩ [.node ⟨⟨1, 6, 5⟩, []⟩ []]

theorem program_traced : TracedAs (finishedSpans afterProgram) programTree where
  tree := by
    refine ⟨⟨1, 5, rfl⟩, ?_, by decide, by decide⟩
    intro e he
    rw [List.mem_singleton.1 he]
    exact ⟨6, rfl⟩
  spans := by decide
  sampled := by
    intro sp hsp ht
    simp only [finishedSpans, afterProgram, List.map_cons, List.map_nil, List.mem_cons, List.not_mem_nil, or_false] at hsp
    rcases hsp with rfl | rfl | rfl
    · rfl
    · rfl
    · exact absurd ht (by decide)

/-- All hypotheses of `opentracing_program_shown` are met; the store had other calls for the trace before it was deleted. -/
example : ∃ ops ms, OTReach sampleOTEnv false afterProgram ∧ (∀ t ∈ afterProgram.threads, t.2 = []) ∧
    (∀ c ∈ afterProgram.calls, c.answer = none) ∧ TracedAs (finishedSpans afterProgram) programTree ∧
    MemStore.new.run ops = some ms ∧ live programTree.span.id.trace ops = forTrace programTree.span.id.trace (collectedBy afterProgram) := by
  obtain ⟨ms, hms⟩ := collect_never_panics
    (.collect ⟨1, 9, 9⟩ [] :: .delete [1] :: (collectedBy afterProgram).map fun e => .collect e.1 e.2)
  exact ⟨_, ms, afterProgram_reached, by simp [afterProgram], by simp [afterProgram, mixedCalls], program_traced, hms, by decide⟩

/-- The calls pass through a `ChunkedCollector`: the queue is flushed once, the query first. -/
theorem program_chunked : ∃ cs, Chunked.Reachable Chunked.defaultCfg cs ∧ Chunked.acceptedCalls cs.history = collectedBy afterProgram ∧
    Chunked.OneAtATime cs.history ∧ cs.pending = [] ∧ (∀ F ∈ cs.flushes, F.remaining = []) ∧ Chunked.droppedCalls cs.history = [] ∧
    Chunked.deliveredCalls cs.history = [(⟨1, 6, 5⟩, queryCalls.flatten), (⟨1, 5, 0⟩, requestCalls.flatten)] := by
  have fix : ∀ (l : List Entry) (cs : Chunked.State), Chunked.ReachableUnflushed Chunked.defaultCfg cs →
      Chunked.ReachableUnflushed Chunked.defaultCfg (l.foldl (fun cs e => (cs.collect Chunked.defaultCfg e).1) cs) := by
    intro l
    induction l with
    | nil => intro cs h; exact h
    | cons e l ih =>
      intro cs h
      refine ih _ (h.step (.collect _ e) fun hn => absurd ?_ hn)
      show (cs.collect Chunked.defaultCfg e).1.nextFlush = _
      unfold Chunked.State.collect Chunked.State.start
      dsimp only
      split
      · rfl
      · by_cases hst : cs.started = true
        · rw [if_pos hst]; split
          · rfl
          · split <;> rfl
        · rw [if_neg hst]; split
          · rfl
          · split <;> rfl
  have r1 := fix (collectedBy afterProgram) {} .init
  have r2 := r1.step (.tick _ rfl) (fun _ => ⟨rfl, rfl⟩)
  have r3 := r2.step (.send _ ⟨0, [(⟨1, 6, 5⟩, queryCalls.flatten), (⟨1, 5, 0⟩, requestCalls.flatten)], []⟩ [] []
    (⟨1, 6, 5⟩, queryCalls.flatten) [] [(⟨1, 5, 0⟩, requestCalls.flatten)] none rfl rfl) (fun h => absurd rfl h)
  have r4 := r3.step (.send _ ⟨0, [(⟨1, 5, 0⟩, requestCalls.flatten)], []⟩ [] [] (⟨1, 5, 0⟩, requestCalls.flatten) [] [] none rfl rfl)
    (fun h => absurd rfl h)
  exact ⟨_, (Chunked.unflushed_one r4).1, rfl, (Chunked.unflushed_one r4).2.one, rfl, by
    intro F hF
    cases List.mem_singleton.1 hF
    rfl, rfl, rfl⟩

/-- All hypotheses of `opentracing_program_shown_chunked` are met. -/
example : ∃ cs ops ms, Chunked.Reachable Chunked.defaultCfg cs ∧
    forTrace programTree.span.id.trace (Chunked.acceptedCalls cs.history) = forTrace programTree.span.id.trace (collectedBy afterProgram) ∧
    Chunked.OneAtATime cs.history ∧ cs.pending = [] ∧ (∀ F ∈ cs.flushes, F.remaining = []) ∧ Chunked.droppedCalls cs.history = [] ∧
    MemStore.new.run ops = some ms ∧
    live programTree.span.id.trace ops = forTrace programTree.span.id.trace (Chunked.deliveredCalls cs.history) := by
  obtain ⟨cs, h1, h2, h3, h4, h5, h6, h7⟩ := program_chunked
  obtain ⟨ms, hms⟩ := collect_never_panics
    [.collect ⟨1, 6, 5⟩ queryCalls.flatten, .collect ⟨1, 5, 0⟩ requestCalls.flatten]
  exact ⟨cs, _, ms, h1, by rw [h2], h3, h4, h5, h6, hms, by rw [h7]; decide⟩

/-- And of `unsampled_trace_absent`, for the other trace. -/
example : (∀ sp ∈ finishedSpans afterProgram, sp.trace = 2 → sp.sampled = false) ∧ ∃ sp ∈ finishedSpans afterProgram, sp.trace = 2 := by
  constructor
  · intro sp hsp ht
    simp only [finishedSpans, afterProgram, List.map_cons, List.map_nil, List.mem_cons, List.not_mem_nil, or_false] at hsp
    rcases hsp with rfl | rfl | rfl
    · exact absurd ht (by decide)
    · exact absurd ht (by decide)
    · rfl
  · exact ⟨otherSpan, by simp [finishedSpans, afterProgram], rfl⟩

/-! ## C120: the logs of a span -/

/-- The full statement of **C120**: `UnmarshalEvents` of what is recorded of a span (C119) gives, among others, a log event for each of its
logs. -/
def LogsShown : Prop :=
  ∀ (reg : Registry) (env : OTEnv) (sp : RawSpan) (as : List Annotation), registerAll libraryEvents [] = some reg → ShowsSpan env sp as →
    PlainTags sp → TimesHold env sp →
    ∃ out, unmarshalEvents reg as = some (out, none) ∧
      ∀ l ∈ sp.logs, ∃ text, LogText env.json l.fields.flatten text ∧ (b!"log", logValue text l.time) ∈ out

/-- **C120**, what holds: `UnmarshalEvents` gives the name, then as many log events as the span has logs, but all of them with the message and
the time of the last one, and then the times. -/
theorem events_shown_partial {reg : Registry} (hreg : registerAll libraryEvents [] = some reg) {env : OTEnv} {sp : RawSpan}
    {as : List Annotation} (h : ShowsSpan env sp as) (hp : PlainTags sp) (ht : TimesHold env sp) :
    ∃ w, unmarshalEvents reg as = some ((b!"name", nameValue sp.operation) :: List.replicate sp.logs.length (b!"log", w) ++
        [(b!"Timespan", timespanValue sp.start (env.add sp.start sp.duration))], none) ∧
      ∀ ls l, sp.logs = ls ++ [l] → ∃ text, LogText env.json l.fields.flatten text ∧ w = logValue text l.time :=
  shown_events hreg h hp ht

/-- So a span with at most one log is shown with all of its logs. -/
theorem one_log_shown_partial {reg : Registry} (hreg : registerAll libraryEvents [] = some reg) {env : OTEnv} {sp : RawSpan}
    {as : List Annotation} (h : ShowsSpan env sp as) (hp : PlainTags sp) (ht : TimesHold env sp) (h1 : sp.logs.length ≤ 1) :
    ∃ out, unmarshalEvents reg as = some (out, none) ∧
      ∀ l ∈ sp.logs, ∃ text, LogText env.json l.fields.flatten text ∧ (b!"log", logValue text l.time) ∈ out := by
  obtain ⟨w, h2, h3⟩ := shown_events hreg h hp ht
  refine ⟨_, h2, ?_⟩
  intro l hl
  match hs : sp.logs, h1 with
  | [], _ => rw [hs] at hl; cases hl
  | [l'], _ =>
    rw [hs] at hl
    cases List.mem_singleton.1 hl
    obtain ⟨text, h4, rfl⟩ := h3 [] l hs
    exact ⟨text, h4, by simp⟩

theorem query_shown : ShowsSpan sampleOTEnv querySpan queryCalls.flatten := by
  refine ⟨queryCalls, ⟨_, _, [_, _], [_], [_], rfl, rfl, ?_, .refl _, .refl _, _, .refl _, rfl⟩, rfl⟩
  refine .cons ⟨b!"sent", .inl ⟨by decide, by decide, by decide⟩, _, .refl _, rfl⟩
    (.cons ⟨b!"done", .inl ⟨by decide, by decide, by decide⟩, _, .refl _, rfl⟩ .nil)

theorem query_plain : PlainTags querySpan := by
  intro e he hr
  have : e = (b!"rows", b!"3") ∨ e = (b!"user", b!"x") := by simpa [querySpan] using he
  rcases this with rfl | rfl
  · rcases hr with h | h | h | ⟨s, h⟩
    · exact absurd h (by decide)
    · exact absurd h (by decide)
    · exact absurd h (by decide)
    · cases h
  · rcases hr with h | h | h | ⟨s, h⟩
    · exact absurd h (by decide)
    · exact absurd h (by decide)
    · exact absurd h (by decide)
    · cases h

theorem query_times : TimesHold sampleOTEnv querySpan := by
  refine ⟨by decide, by decide, ?_⟩
  intro l hl
  simp only [querySpan, List.mem_cons, List.not_mem_nil, or_false] at hl
  rcases hl with rfl | rfl <;> decide

/-- **C120** is false of the code: of the two logs of the query only the second is shown, twice. -/
theorem logs_not_shown : ¬ LogsShown := by
  intro h
  obtain ⟨reg, hreg, -⟩ := library_registers
  obtain ⟨out, h1, h2⟩ := h reg sampleOTEnv querySpan _ hreg query_shown query_plain query_times
  obtain ⟨w, h3, h4⟩ := shown_events hreg query_shown query_plain query_times
  obtain ⟨text', -, rfl⟩ := h4 [_] _ rfl
  rw [h1] at h3
  cases h3
  obtain ⟨text, -, h5⟩ := h2 ⟨⟨2016, 1, 2, 3, 4, 5, 3, 0⟩, [[(b!"event", b!"sent")]]⟩ (by simp [querySpan])
  simp [querySpan, logValue, nameValue, timespanValue, List.replicate_succ] at h5

/-- **C120** (why `PlainTags`).  A tag called `Msg` changes the message of a log, one called `Name` the name event, and one called
`_schema:...` adds an event. -/
theorem tags_taken_for_events : ∃ (sp : RawSpan) (as : List Annotation) (reg : Registry), registerAll libraryEvents [] = some reg ∧
    ShowsSpan sampleOTEnv sp as ∧ TimesHold sampleOTEnv sp ∧ sp.operation = b!"op" ∧ sp.logs.map (·.fields) = [[[(b!"event", b!"sent")]]] ∧
    ∃ t out, unmarshalEvents reg as = some (out, none) ∧
      out = [(b!"name", nameValue b!"x"), (b!"log", logValue b!"y" t), (b!"msg", .struct [gString b!"y"]),
        (b!"Timespan", timespanValue sp.start (sampleOTEnv.add sp.start sp.duration))] := by
  obtain ⟨reg, hreg, -⟩ := library_registers
  refine ⟨⟨true, 1, 5, 0, b!"op", ⟨2016, 1, 2, 3, 4, 5, 0, 0⟩, 9, [⟨⟨2016, 1, 2, 3, 4, 5, 3, 0⟩, [[(b!"event", b!"sent")]]⟩],
    [(b!"Name", b!"x"), (b!"Msg", b!"y"), (b!"_schema:msg", [])], []⟩, _, reg, hreg,
    ⟨_, ⟨_, _, [_], _, _, rfl, rfl, .cons ⟨b!"sent", .inl ⟨by decide, by decide, by decide⟩, _, .refl _, rfl⟩ .nil, .refl _, .refl _,
      _, .refl _, rfl⟩, rfl⟩, ⟨by decide, by decide, ?_⟩, rfl, rfl, ⟨2016, 1, 2, 3, 4, 5, 3, 0⟩, _, ?_, rfl⟩
  · intro l hl
    rw [List.mem_singleton.1 hl]
    decide
  · cases hreg
    rfl

end Appdash
