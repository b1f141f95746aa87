import Verif.Proofs.OpenTracing
import Verif.Properties.EventFlat

/-!
# C57 and C72: recording OpenTracing spans

`OTReach env verbose s`: a recorder that any number of goroutines use at once, with a collector that may return an error
from any call, can get into the state `s`.  A goroutine with nothing left to do has returned from `RecordSpan`.
-/

namespace Appdash

open Spec

/-- **C57** (unsampled).  No collector call is made for a span that is not sampled. -/
theorem unsampled_not_recorded (env : OTEnv) (verbose : Bool) (s : OTState) (h : OTReach env verbose s) (i : Nat)
    (sp : RawSpan) (acts : List OTAct) (ht : s.threads[i]? = some (sp, acts)) (hs : sp.sampled = false) :
    callsOf s i = [] := by
  obtain ⟨-, calls, rest, hp, e, h0, -⟩ := h.inv.threads i _ ht
  have e' : mains (callsOf s i) ++ rest = [] := by rw [e]; exact h0 hs
  rw [List.append_eq_nil_iff] at e'
  have hr : ∀ cs, ReportsRight cs → mains cs = [] → cs = [] := by
    intro cs hr hm
    cases hr with
    | nil => rfl
    | ok c cs h1 => simp [mains, h1] at hm
    | failed c r cs e t h1 => simp [mains, h1] at hm
  simp only at hp
  have hm := e'.1
  generalize callsOf s i = cs at hp hm
  cases hp with
  | between rest cs h => exact hr _ h hm
  | logging rest cs e h => exact hr _ h hm
  | reporting rest cs c e h h1 h2 => simp [mains, h1] at hm

/-- **C57** (sampled).  When `RecordSpan` has returned, everything about the span has been sent to the collector, under
its own IDs: its name, every log in order, every tag and baggage item, and its start and end time; each call that failed
was followed by a report of the error, and nothing else was sent. -/
theorem sampled_recorded (env : OTEnv) (verbose : Bool) (s : OTState) (h : OTReach env verbose s) (i : Nat)
    (sp : RawSpan) (ht : s.threads[i]? = some (sp, [])) (hs : sp.sampled = true) :
    (∀ c ∈ callsOf s i, c.span = ⟨sp.trace, sp.span, sp.parent⟩) ∧
    RecordsAll env sp (((callsOf s i).filter fun c => c.report = none).map OTCall.as) ∧
    ReportsRight (callsOf s i) := by
  obtain ⟨hid, calls, rest, hp, e, -, h1⟩ := h.inv.threads i _ ht
  refine ⟨hid, ?_⟩
  simp only at hp
  have e' : mains (callsOf s i) ++ rest = calls := e
  have h1' := h1 hs
  generalize callsOf s i = cs at hp e'
  generalize ha : ([] : List OTAct) = acts at hp
  cases hp with
  | reporting => cases ha
  | logging => cases ha
  | between rest cs hr =>
    cases rest with
    | cons => cases ha
    | nil =>
      rw [List.append_nil] at e'
      subst e'
      exact ⟨h1', hr⟩

/-- **C57** (before it has returned).  At every moment, the calls made for a span are the beginning of such a record: it
can be completed by further calls. -/
theorem recorded_prefix (env : OTEnv) (verbose : Bool) (s : OTState) (h : OTReach env verbose s) (i : Nat)
    (sp : RawSpan) (acts : List OTAct) (ht : s.threads[i]? = some (sp, acts)) (hs : sp.sampled = true) :
    (∀ c ∈ callsOf s i, c.span = ⟨sp.trace, sp.span, sp.parent⟩) ∧
    ∃ rest, RecordsAll env sp (((callsOf s i).filter fun c => c.report = none).map OTCall.as ++ rest) := by
  obtain ⟨hid, calls, rest, hp, e, -, h1⟩ := h.inv.threads i _ ht
  refine ⟨hid, rest, ?_⟩
  have e' : mains (callsOf s i) ++ rest = calls := e
  exact e' ▸ h1 hs

/-- **C57** (calls belong to spans).  Every call was made for one of the spans. -/
theorem calls_owned (env : OTEnv) (verbose : Bool) (s : OTState) (h : OTReach env verbose s) :
    ∀ c ∈ s.calls, c.thread < s.threads.length := h.inv.owned

/-- **C57** (logger, not verbose).  However many spans are recorded at once and whatever fails, the logger gets at most
one line; when all have returned, it has got one exactly if some report was refused. -/
theorem logged_once (env : OTEnv) (s : OTState) (h : OTReach env false s) :
    s.logged.length ≤ 1 ∧ (∀ e ∈ s.logged, e ∈ failedReports s) ∧
    ((∀ t ∈ s.threads, t.2 = []) → (s.logged.length = 1 ↔ failedReports s ≠ [])) := by
  obtain ⟨inv, hv⟩ := h.logInv
  have h1 := inv.once hv
  refine ⟨by rw [h1]; split <;> omega, fun e he => inv.mem e (List.mem_append_left _ he), fun hd => ?_⟩
  have h2 := inv.any hv
  rw [pending_done hd] at h2
  simp only [ne_eq, not_true_eq_false, or_false] at h2
  rw [h1, ne_eq, ← h2]
  split <;> simp_all

/-- **C57** (logger, verbose).  When all have returned, the logger has got one line for every refused report. -/
theorem logged_verbose (env : OTEnv) (s : OTState) (h : OTReach env true s) (hd : ∀ t ∈ s.threads, t.2 = []) :
    s.logged.Perm (failedReports s) := by
  obtain ⟨inv, hv⟩ := h.logInv
  have := inv.all hv
  rwa [pending_done hd, List.append_nil] at this

/-- A span with a log of two fields, a tag and a baggage item. -/
def sampleSpan : RawSpan :=
  { sampled := true, trace := 1, span := 2, parent := 3, operation := b!"op", start := ⟨2016, 1, 2, 3, 4, 5, 0, 0⟩
    duration := 7, logs := [⟨⟨2016, 1, 2, 3, 4, 5, 1, 0⟩, [[(b!"event", b!"a")], [(b!"event", b!"b")]]⟩]
    tags := [(b!"Name", b!"x")], baggage := [(b!"Span.Start", b!"y")] }

/-- An environment. -/
def sampleOTEnv : OTEnv := { json := fun m => m.keys.flatten, add := fun t d => { t with nsec := t.nsec + d.toNat } }

/-- The arguments of the calls for the span. -/
def sampleCalls : List (List Annotation) :=
  [[⟨b!"Name", some b!"op"⟩, ⟨b!"_schema:name", none⟩],
   [⟨b!"Time", some b!"2016-01-02T03:04:05.000000001Z"⟩, ⟨b!"Msg", some b!"b"⟩, ⟨b!"_schema:log", none⟩],
   [⟨b!"Name", some b!"x"⟩], [⟨b!"Span.Start", some b!"y"⟩],
   [⟨b!"Span.Start", some b!"2016-01-02T03:04:05Z"⟩, ⟨b!"Span.End", some b!"2016-01-02T03:04:05.000000007Z"⟩,
    ⟨b!"_schema:Timespan", none⟩]]

theorem sample_recorded : RecordSpan sampleOTEnv sampleSpan (sampleCalls.map OTAct.collect) := by
  refine ⟨_, [_], _, _, _, ⟨_, ⟨_, .refl _, rfl⟩, rfl⟩,
    .cons ⟨_, ⟨[(b!"Time", b!"2016-01-02T03:04:05.000000001Z"), (b!"Msg", b!"b")], .swap _ _ _, rfl⟩, rfl⟩ .nil,
    .refl _, .refl _, ⟨_, ⟨_, .refl _, rfl⟩, rfl⟩, rfl⟩

/-- The collector refuses the name and the report of that error; the rest is accepted. -/
example : ∃ s, OTReach sampleOTEnv false s ∧ s.threads[0]? = some (sampleSpan, []) ∧ (∀ t ∈ s.threads, t.2 = []) ∧
    s.calls.length = 6 ∧ failedReports s = [b!"still down"] ∧ s.logged = [b!"still down"] := by
  refine ⟨_, .step (.step (.step (.step (.step (.step (.step (.step .new (.start _ _ _ sample_recorded))
    (.collect _ 0 _ _ _ (some b!"down") rfl))
    (.report _ 0 _ _ _ ⟨2016, 1, 2, 3, 4, 6, 0, 0⟩ _ (some b!"still down") rfl ⟨_, .refl _, rfl⟩))
    (.log _ 0 _ _ _ rfl)) (.collect _ 0 _ _ _ none rfl)) (.collect _ 0 _ _ _ none rfl)) (.collect _ 0 _ _ _ none rfl))
    (.collect _ 0 _ _ _ none rfl), rfl, ?_, rfl, rfl, rfl⟩
  intro t ht
  simp [OTState.writeLog, OTState.new] at ht
  rw [ht]
  rfl

/-! ## Reading back -/

/-- The name in a record of a span. -/
theorem recordsAll_name (env : OTEnv) (sp : RawSpan) (calls : List (List Annotation)) (h : RecordsAll env sp calls) :
    annotationsName calls.flatten = sp.operation := by
  obtain ⟨name, times, logs, tags, bag, rfl, hn, -⟩ := h
  cases hn
  simp [annotationsName, Annotation.valueString]

/-- The times in a record of a span. -/
theorem recordsAll_times (env : OTEnv) (sp : RawSpan) (calls : List (List Annotation)) (h : RecordsAll env sp calls)
    (hh : timespan.type.holds (.struct [.scalar (.time sp.start), .scalar (.time (env.add sp.start sp.duration))]) = true) :
    unmarshalEvent timespan calls.flatten timespan.type.zero =
      some (.struct [.scalar (.time sp.start), .scalar (.time (env.add sp.start sp.duration))], none) := by
  obtain ⟨name, times, logs, tags, bag, rfl, -, -, -, -, htm⟩ := h
  obtain ⟨l, hl, rfl⟩ := htm
  have hm : Marshals timespan (.struct [.scalar (.time sp.start), .scalar (.time (env.add sp.start sp.duration))])
      (.ok (l ++ [⟨b!"_schema:Timespan", none⟩])) := by
    obtain ⟨kvs, h1, h2⟩ : ∃ kvs : List KV, kvs.Perm [(b!"Span.Start", formatTime sp.start),
        (b!"Span.End", formatTime (env.add sp.start sp.duration))] ∧ l = kvs.map annotationOf := by
      obtain ⟨kvs, h1, h2⟩ := perm_of_map annotationOf hl
        (m := [(b!"Span.Start", formatTime sp.start), (b!"Span.End", formatTime (env.add sp.start sp.duration))]) rfl
      exact ⟨kvs, h1, h2⟩
    exact ⟨kvs, h1, by rw [h2]; rfl⟩
  have := library_flat_event_survives timespan (by simp) _ timespan.type.zero hh (by decide) _ hm
    ([name] ++ logs ++ tags ++ bag).flatten [] (by simp)
  rw [List.append_nil] at this
  rw [List.flatten_append]
  simpa using this

/-- The tags in a record of a span. -/
theorem recordsAll_tags (env : OTEnv) (sp : RawSpan) (calls : List (List Annotation)) (h : RecordsAll env sp calls)
    (e : Bytes × Bytes) (he : e ∈ sp.tags ∨ e ∈ sp.baggage) : ⟨e.1, some e.2⟩ ∈ calls.flatten := by
  obtain ⟨name, times, logs, tags, bag, rfl, -, -, ht, hb, -⟩ := h
  rw [List.mem_flatten]
  refine ⟨[⟨e.1, some e.2⟩], ?_, by simp⟩
  rcases he with he | he
  · have : [⟨e.1, some e.2⟩] ∈ tags := ht.mem_iff.2 (List.mem_map.2 ⟨e, he, rfl⟩)
    simp [this]
  · have : [⟨e.1, some e.2⟩] ∈ bag := hb.mem_iff.2 (List.mem_map.2 ⟨e, he, rfl⟩)
    simp [this]

/-- If all calls for a span succeeded, together they are the record of it. -/
theorem recorded_ok {env : OTEnv} {verbose : Bool} {s : OTState} (h : OTReach env verbose s) {i : Nat}
    {sp : RawSpan} (ht : s.threads[i]? = some (sp, [])) (hs : sp.sampled = true)
    (hok : ∀ c ∈ callsOf s i, c.answer = none) : RecordsAll env sp ((callsOf s i).map OTCall.as) := by
  obtain ⟨-, h1, h2⟩ := sampled_recorded env verbose s h i sp ht hs
  have : ∀ cs, ReportsRight cs → (∀ c ∈ cs, c.answer = none) → (cs.filter fun c => c.report = none) = cs := by
    intro cs hr hok
    induction hr with
    | nil => rfl
    | ok c cs h1 h2 _ ih =>
      rw [List.filter_cons_of_pos (by simpa using h1), ih fun c hc => hok c (List.mem_cons_of_mem _ hc)]
    | failed c r cs e t h1 h2 => simp [hok c (List.mem_cons_self ..)] at h2
  rwa [this _ h2 hok] at h1

/-- **C72** (name).  If the collector has accepted all calls for a span, the name read from what it got is the operation,
whatever the tags, logs and baggage are. -/
theorem recorded_name (env : OTEnv) (verbose : Bool) (s : OTState) (h : OTReach env verbose s) (i : Nat) (sp : RawSpan)
    (ht : s.threads[i]? = some (sp, [])) (hs : sp.sampled = true) (hok : ∀ c ∈ callsOf s i, c.answer = none) :
    annotationsName ((callsOf s i).flatMap OTCall.as) = sp.operation := by
  rw [List.flatMap_def]
  exact recordsAll_name env sp _ (recorded_ok h ht hs hok)

/-- **C72** (times).  And the start and end time can be read back (if their years are from 0 to 9999 and their zones whole
minutes). -/
theorem recorded_times (env : OTEnv) (verbose : Bool) (s : OTState) (h : OTReach env verbose s) (i : Nat) (sp : RawSpan)
    (ht : s.threads[i]? = some (sp, [])) (hs : sp.sampled = true) (hok : ∀ c ∈ callsOf s i, c.answer = none)
    (hh : timespan.type.holds (.struct [.scalar (.time sp.start), .scalar (.time (env.add sp.start sp.duration))]) = true) :
    unmarshalEvent timespan ((callsOf s i).flatMap OTCall.as) timespan.type.zero =
      some (.struct [.scalar (.time sp.start), .scalar (.time (env.add sp.start sp.duration))], none) := by
  rw [List.flatMap_def]
  exact recordsAll_times env sp _ (recorded_ok h ht hs hok) hh

/-- **C72** (tags and baggage).  And every tag and every baggage item is among the annotations. -/
theorem recorded_tags (env : OTEnv) (verbose : Bool) (s : OTState) (h : OTReach env verbose s) (i : Nat) (sp : RawSpan)
    (ht : s.threads[i]? = some (sp, [])) (hs : sp.sampled = true) (hok : ∀ c ∈ callsOf s i, c.answer = none)
    (e : Bytes × Bytes) (he : e ∈ sp.tags ∨ e ∈ sp.baggage) :
    ⟨e.1, some e.2⟩ ∈ (callsOf s i).flatMap OTCall.as := by
  rw [List.flatMap_def]
  exact recordsAll_tags env sp _ (recorded_ok h ht hs hok) e he

example : ∃ s, OTReach sampleOTEnv false s ∧ s.threads[0]? = some (sampleSpan, []) ∧ sampleSpan.sampled = true ∧
    (∀ c ∈ callsOf s 0, c.answer = none) ∧
    timespan.type.holds (.struct [.scalar (.time sampleSpan.start),
      .scalar (.time (sampleOTEnv.add sampleSpan.start sampleSpan.duration))]) = true := by
  refine ⟨_, .step (.step (.step (.step (.step (.step .new (.start _ _ _ sample_recorded))
    (.collect _ 0 _ _ _ none rfl)) (.collect _ 0 _ _ _ none rfl)) (.collect _ 0 _ _ _ none rfl))
    (.collect _ 0 _ _ _ none rfl)) (.collect _ 0 _ _ _ none rfl), rfl, rfl, ?_, by decide⟩
  simp [callsOf, OTState.new]

end Appdash
