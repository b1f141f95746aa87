import Verif.Proofs.EndToEnd
import Verif.Proofs.ChunkedOnce
import Verif.Properties.Causal
import Verif.Properties.RemoteArrival

/-!
# C105: what a program records is what the store shows
-/

namespace Appdash
open Spec

/-- **C105**.  A program makes the spans of a causal tree `tr` and has a recorder for each of them.  If the store has received the calls of
the recorders since the trace was last deleted, in any order and mixed with calls for other traces, then `Trace` returns the tree, and
`UnmarshalEvents` of the annotations of each span in it returns the events that were recorded for this span, in order. -/
theorem recorded_program_shown {reg : Registry} (hreg : registerAll libraryEvents [] = some reg) {ops : List StoreOp} {ms : MemStore}
    (h : MemStore.new.run ops = some ms) {tr : Tree} (hc : CausalTree tr) (recs : SpanID → Recording)
    (hp : ∀ sp ∈ tr.spans, (recs sp.id).Proper sp.id)
    (hL : (live tr.span.id.trace ops).Perm (tr.spans.flatMap fun sp => (recs sp.id).calls sp.id)) :
    ∃ tr', ms.view tr.span.id.trace = .found tr' ∧ TreeEquiv (reannotate (fun _ => []) tr') (reannotate (fun _ => []) tr) ∧
      ∀ sp ∈ tr'.spans, ∃ out, unmarshalEvents reg sp.annotations = some (out, none) ∧ AreEvents (recs sp.id).events out := by
  have e : (tr.spans.flatMap fun sp => (recs sp.id).calls sp.id) =
      tr.spans.map fun sp => (sp.id, (recs sp.id).before.flatMap eventAnnotations) := by
    rw [← List.flatMap_singleton' (tr.spans.map _), List.flatMap_map]
    exact List.flatMap_congr fun sp hsp => proper_calls (hp sp hsp)
  rw [e] at hL
  obtain ⟨tr', h1, h2, h3⟩ := recordings_view h hc (fun id => (recs id).before.flatMap eventAnnotations) hL
  refine ⟨tr', h1, ?_, ?_⟩
  · have := treeEquiv_reannotate (fun _ => []) h2
    rwa [reannotate_twice] at this
  · intro sp hsp
    obtain ⟨⟨sp', hsp', hid⟩, ha⟩ := h3 sp hsp
    rw [ha]
    have := hp sp' hsp'
    rw [hid] at this
    exact proper_events hreg this

/-- **C105** (over the network).  The recorders share a `RemoteCollector` that returned nil for their calls; the packets are within the
size limit, and none arrived twice (`honce`, as in C74).  Whatever connections were opened and broke, and in whatever order the servers of
the connections pass what they received to the store, `Trace` and `UnmarshalEvents` return the program's spans and events. -/
theorem recorded_program_shown_remotely {reg : Registry} (hreg : registerAll libraryEvents [] = some reg)
    {tr : Tree} (hc : CausalTree tr) (recs : SpanID → Recording) (hp : ∀ sp ∈ tr.spans, (recs sp.id).Proper sp.id)
    {c : Mutex.Config remoteMachine} (hrc : Mutex.Reachable remoteMachine {} c) (hfree : c.holder = none)
    (hsame : (forTrace tr.span.id.trace (accepted c.log)).Perm (tr.spans.flatMap fun sp => (recs sp.id).calls sp.id))
    (hlim : ∀ d ∈ attempted c.log, WithinLimit d)
    (honce : (c.shared.conns.flatMap fun k => (handleConn acceptAll k.bytes).1).length = (accepted c.log).length)
    (L : List Entry) (hL : L.Perm (c.shared.conns.flatMap fun k => (handleConn acceptAll k.bytes).1)) :
    ∃ ms tr', MemStore.new.run (L.map fun e => .collect e.1 e.2) = some ms ∧ ms.view tr.span.id.trace = .found tr' ∧
      TreeEquiv (reannotate (fun _ => []) tr') (reannotate (fun _ => []) tr) ∧
      ∀ sp ∈ tr'.spans, ∃ out, unmarshalEvents reg sp.annotations = some (out, none) ∧ AreEvents (recs sp.id).events out := by
  have := (accepted_arrive_partial c hrc hfree hlim).eq_of_length honce.symm
  rw [← this] at hL
  obtain ⟨ms, hms⟩ := collect_never_panics (L.map fun e => StoreOp.collect e.1 e.2)
  obtain ⟨tr', h1, h2, h3⟩ := recorded_program_shown hreg hms hc recs hp (by
    rw [live_of_collects _ L _ rfl]
    exact (hL.filter _).trans hsame)
  exact ⟨ms, tr', hms, h1, h2, h3⟩

/-- The program's recorders call `Collect` once for each span, so the calls are for different spans. -/
theorem recorded_calls_distinct {tr : Tree} (hc : CausalTree tr) (recs : SpanID → Recording)
    (hp : ∀ sp ∈ tr.spans, (recs sp.id).Proper sp.id) :
    ((tr.spans.flatMap fun sp => (recs sp.id).calls sp.id).map Prod.fst).Nodup := by
  have e : (tr.spans.flatMap fun sp => (recs sp.id).calls sp.id) =
      tr.spans.map fun sp => (sp.id, (recs sp.id).before.flatMap eventAnnotations) := by
    rw [← List.flatMap_singleton' (tr.spans.map _), List.flatMap_map]
    exact List.flatMap_congr fun sp hsp => proper_calls (hp sp hsp)
  rw [e, List.map_map]
  refine List.Nodup.of_map SpanID.span ?_
  rw [List.map_map]
  exact hc.distinct

/-- **C105** (with a chunked collector).  The recorders share a `ChunkedCollector`, in any interleaving of calls, flushes and the background
goroutine; everything accepted has been handed on and nothing was dropped.  The store behind it, which has received the deliveries in any
order, shows the program's spans and events. -/
theorem recorded_program_shown_chunked {reg : Registry} (hreg : registerAll libraryEvents [] = some reg)
    {tr : Tree} (hc : CausalTree tr) (recs : SpanID → Recording) (hp : ∀ sp ∈ tr.spans, (recs sp.id).Proper sp.id)
    {cfg : Chunked.Cfg} {s : Chunked.State} (h : Chunked.Reachable cfg s)
    (hq : s.pending = []) (hf : ∀ F ∈ s.flushes, F.remaining = []) (hd : Chunked.droppedCalls s.history = [])
    (hr : (forTrace tr.span.id.trace (Chunked.acceptedCalls s.history)).Perm
      (tr.spans.flatMap fun sp => (recs sp.id).calls sp.id))
    (L : List Entry) (hL : L.Perm (Chunked.deliveredCalls s.history)) :
    ∃ ms tr', MemStore.new.run (L.map fun e => .collect e.1 e.2) = some ms ∧ ms.view tr.span.id.trace = .found tr' ∧
      TreeEquiv (reannotate (fun _ => []) tr') (reannotate (fun _ => []) tr) ∧
      ∀ sp ∈ tr'.spans, ∃ out, unmarshalEvents reg sp.annotations = some (out, none) ∧ AreEvents (recs sp.id).events out := by
  obtain ⟨ms, hms⟩ := collect_never_panics (L.map fun e => StoreOp.collect e.1 e.2)
  have hn := ((hr.map Prod.fst).nodup_iff).2 (recorded_calls_distinct hc recs hp)
  obtain ⟨tr', h1, h2, h3⟩ := recorded_program_shown hreg hms hc recs hp (by
    rw [live_of_collects _ L _ rfl]
    exact ((hL.filter _).trans (Chunked.once_delivered h hq hf hd _ hn)).trans hr)
  exact ⟨ms, tr', hms, h1, h2, h3⟩

/-- **C105** (end to end).  The recorders share a `ChunkedCollector` whose deliveries are the calls on a `RemoteCollector` that returned
nil; the rest as in `recorded_program_shown_remotely`. -/
theorem recorded_program_shown_end_to_end {reg : Registry} (hreg : registerAll libraryEvents [] = some reg)
    {tr : Tree} (hc : CausalTree tr) (recs : SpanID → Recording) (hp : ∀ sp ∈ tr.spans, (recs sp.id).Proper sp.id)
    {cfg : Chunked.Cfg} {s : Chunked.State} (h : Chunked.Reachable cfg s)
    (hq : s.pending = []) (hf : ∀ F ∈ s.flushes, F.remaining = []) (hd : Chunked.droppedCalls s.history = [])
    (hr : (forTrace tr.span.id.trace (Chunked.acceptedCalls s.history)).Perm
      (tr.spans.flatMap fun sp => (recs sp.id).calls sp.id))
    {c : Mutex.Config remoteMachine} (hrc : Mutex.Reachable remoteMachine {} c) (hfree : c.holder = none)
    (hsame : (accepted c.log).Perm (Chunked.deliveredCalls s.history)) (hlim : ∀ d ∈ attempted c.log, WithinLimit d)
    (honce : (c.shared.conns.flatMap fun k => (handleConn acceptAll k.bytes).1).length = (accepted c.log).length)
    (L : List Entry) (hL : L.Perm (c.shared.conns.flatMap fun k => (handleConn acceptAll k.bytes).1)) :
    ∃ ms tr', MemStore.new.run (L.map fun e => .collect e.1 e.2) = some ms ∧ ms.view tr.span.id.trace = .found tr' ∧
      TreeEquiv (reannotate (fun _ => []) tr') (reannotate (fun _ => []) tr) ∧
      ∀ sp ∈ tr'.spans, ∃ out, unmarshalEvents reg sp.annotations = some (out, none) ∧ AreEvents (recs sp.id).events out := by
  have := (accepted_arrive_partial c hrc hfree hlim).eq_of_length honce.symm
  rw [← this] at hL
  exact recorded_program_shown_chunked hreg hc recs hp h hq hf hd hr L (hL.trans hsame)

/-- **C105** (repetitions).  If the store has received the calls of the recorders in any order, each at least once, then the tree is the
program's, and `UnmarshalEvents` returns the events of each span, in order, as many times as the call for the span was received. -/
theorem recorded_program_repeated {reg : Registry} (hreg : registerAll libraryEvents [] = some reg) {ops : List StoreOp} {ms : MemStore}
    (h : MemStore.new.run ops = some ms) {tr : Tree} (hc : CausalTree tr) (recs : SpanID → Recording)
    (hp : ∀ sp ∈ tr.spans, (recs sp.id).Proper sp.id)
    (hL : ∀ e, e ∈ live tr.span.id.trace ops ↔ e ∈ tr.spans.flatMap fun sp => (recs sp.id).calls sp.id) :
    ∃ tr', ms.view tr.span.id.trace = .found tr' ∧ TreeEquiv (reannotate (fun _ => []) tr') (reannotate (fun _ => []) tr) ∧
      ∀ sp ∈ tr'.spans, ∃ out n, n = ((live tr.span.id.trace ops).countP fun e => e.1 = sp.id) ∧ 1 ≤ n ∧
        unmarshalEvents reg sp.annotations = some ((List.replicate n out).flatten, none) ∧ AreEvents (recs sp.id).events out := by
  have e : (tr.spans.flatMap fun sp => (recs sp.id).calls sp.id) =
      tr.spans.map fun sp => (sp.id, (recs sp.id).before.flatMap eventAnnotations) := by
    rw [← List.flatMap_singleton' (tr.spans.map _), List.flatMap_map]
    exact List.flatMap_congr fun sp hsp => proper_calls (hp sp hsp)
  rw [e] at hL
  obtain ⟨tr', h1, h2, h3⟩ := repeated_view h hc (fun id => (recs id).before.flatMap eventAnnotations) hL
  refine ⟨tr', h1, ?_, ?_⟩
  · have := treeEquiv_reannotate (fun _ => []) h2
    rwa [reannotate_twice] at this
  · intro sp hsp
    obtain ⟨⟨sp', hsp', hid⟩, ha⟩ := h3 sp hsp
    have := hp sp' hsp'
    rw [hid] at this
    obtain ⟨out, h4, h5⟩ := proper_events hreg this
    refine ⟨out, _, rfl, ?_, ?_, h5⟩
    · refine List.countP_pos_iff.2 ⟨_, (hL _).2 (List.mem_map.2 ⟨sp', hsp', rfl⟩), ?_⟩
      simpa using hid
    · rw [ha]
      exact unmarshalEvents_repeat hreg h4 _

/-- **C105** (over the network, with retries).  As `recorded_program_shown_remotely`, but packets may arrive twice, because a call whose
connection broke is retried: the tree is the program's, and for each span `UnmarshalEvents` returns its events one or more times: at most
twice for each `Collect` call. -/
theorem recorded_program_retried {reg : Registry} (hreg : registerAll libraryEvents [] = some reg)
    {tr : Tree} (hc : CausalTree tr) (recs : SpanID → Recording) (hp : ∀ sp ∈ tr.spans, (recs sp.id).Proper sp.id)
    {c : Mutex.Config remoteMachine} (hrc : Mutex.Reachable remoteMachine {} c) (hfree : c.holder = none)
    (hsame : (forTrace tr.span.id.trace (accepted c.log)).Perm (tr.spans.flatMap fun sp => (recs sp.id).calls sp.id))
    (hall : ∀ d ∈ attempted c.log, d.1.trace = tr.span.id.trace → d ∈ accepted c.log)
    (hlim : ∀ d ∈ attempted c.log, WithinLimit d)
    (L : List Entry) (hL : L.Perm (c.shared.conns.flatMap fun k => (handleConn acceptAll k.bytes).1)) :
    ∃ ms tr', MemStore.new.run (L.map fun e => .collect e.1 e.2) = some ms ∧ ms.view tr.span.id.trace = .found tr' ∧
      TreeEquiv (reannotate (fun _ => []) tr') (reannotate (fun _ => []) tr) ∧
      ∀ sp ∈ tr'.spans, ∃ out n, 1 ≤ n ∧ n ≤ 2 * (attempted c.log).countP (fun d => d.1 = sp.id) ∧
        unmarshalEvents reg sp.annotations = some ((List.replicate n out).flatten, none) ∧ AreEvents (recs sp.id).events out := by
  have hsub := accepted_arrive_partial c hrc hfree hlim
  have hno : ∀ i op l, c.threads i ≠ .inside op l := by
    intro i op l hi
    have := (Mutex.inv_reachable hrc).1 i op l hi
    rw [hfree] at this
    cases this
  have hLd : ∀ e ∈ L, e ∈ attempted c.log := by
    intro e he
    obtain ⟨k, hk, hek⟩ := List.mem_flatMap.1 (hL.subset he)
    have hcl : ∀ d, Called c d → d ∈ attempted c.log := by
      rintro d (hd | ⟨i, l, hi⟩)
      · exact hd
      · exact absurd hi (hno i _ l)
    exact hcl e ((server_never_mixes c hrc (fun d hd => hlim d (hcl d hd)) k hk k.bytes.length acceptAll).1 e
      (by rw [List.take_length]; exact hek))
  obtain ⟨ms, hms⟩ := collect_never_panics (L.map fun e => StoreOp.collect e.1 e.2)
  obtain ⟨tr', h1, h2, h3⟩ := recorded_program_repeated hreg hms hc recs hp (by
    intro e
    rw [live_of_collects _ L _ rfl, ← hsame.mem_iff]
    simp only [forTrace, List.mem_filter, decide_eq_true_eq]
    exact ⟨fun h => ⟨hall e (hLd e h.1) h.2, h.2⟩, fun h => ⟨hL.symm.subset (hsub.subset h.1), h.2⟩⟩)
  refine ⟨ms, tr', hms, h1, h2, ?_⟩
  intro sp hsp
  obtain ⟨out, n, h0, h4, h5, h6⟩ := h3 sp hsp
  refine ⟨out, n, h4, ?_, h5, h6⟩
  have h7 := (packets_arrive_at_most_twice c hrc hfree hlim fun d => d.1 = sp.id).2
  have h8 : L.countP (fun d => d.1 = sp.id) = (received c.shared).countP fun d => d.1 = sp.id := hL.countP_eq _
  rw [h0, live_of_collects _ L _ rfl, forTrace]
  have h9 := (List.filter_sublist (l := L) (p := fun e : Entry => decide (e.1.trace = tr.span.id.trace))).countP_le
    (p := fun d => decide (d.1 = sp.id))
  omega

/-! ## A program with two spans -/

/-- A recording of the events, each with its annotations in the order of its fields. -/
def sampleRecording (evs : List (EventType × GVal)) : Recording where
  events := evs
  logger := false
  env := { answer := fun _ _ => none, report := fun _ _ _ => [] }
  before := evs.map fun e => .event (.ok ((flatten e.1.type [] e.2).map annotationOf ++ [schemaMarker e.1.schema]))
  after := [.errors]

theorem sampleRecording_proper (evs : List (EventType × GVal)) (id : SpanID)
    (hlib : ∀ e ∈ evs, e.1 ∈ libraryEvents ∧ e.1.type.holds e.2 = true) (ht : evs.Pairwise fun e f => e.1.schema ≠ f.1.schema)
    (hb : ¬ ((∃ e ∈ evs, e.1.schema = b!"msg") ∧ ∃ e ∈ evs, e.1.schema = b!"log")) : (sampleRecording evs).Proper id where
  recorded := by
    have hm : ∀ e ∈ libraryEvents, e.marshaler = none := by
      intro e he
      simp only [libraryEvents, List.mem_cons, List.not_mem_nil, or_false] at he
      rcases he with rfl | rfl | rfl | rfl | rfl | rfl | rfl | rfl <;> rfl
    simp only [sampleRecording, List.filterMap_map]
    have : (recordedBy ∘ fun e : EventType × GVal =>
        RecOp.event (.ok ((flatten e.1.type [] e.2).map annotationOf ++ [schemaMarker e.1.schema]))) =
        fun e => some ((flatten e.1.type [] e.2).map annotationOf ++ [schemaMarker e.1.schema]) := rfl
    rw [this, List.filterMap_eq_map', List.forall₂_map_right_iff, List.forall₂_same]
    intro e he
    simp only [Marshals, hm _ (hlib e he).1]
    exact ⟨_, List.Perm.refl _, rfl⟩
  first := by
    intro op hop
    obtain ⟨e, -, rfl⟩ := List.mem_map.1 hop
    exact .inr ⟨_, rfl⟩
  rest := by simp [sampleRecording]
  accepted := fun _ => rfl
  library := hlib
  types := ht
  notBoth := hb

/-- A request with a name and a message, and below it a span with a name; the lower one arrives first.  All hypotheses of
`recorded_program_shown` are met. -/
example : ∃ (reg : Registry) (ops : List StoreOp) (ms : MemStore) (tr : Tree) (recs : SpanID → Recording),
    registerAll libraryEvents [] = some reg ∧ MemStore.new.run ops = some ms ∧ CausalTree tr ∧ tr.spans.length = 2 ∧
    (∀ sp ∈ tr.spans, (recs sp.id).Proper sp.id ∧ (recs sp.id).events ≠ []) ∧
    (live tr.span.id.trace ops).Perm (tr.spans.flatMap fun sp => (recs sp.id).calls sp.id) := by
  let root : List (EventType × GVal) :=
    [(spanNameEvent, .struct [.scalar (.string b!"home")]), (msgEvent, .struct [.scalar (.string b!"hello")])]
  let leaf : List (EventType × GVal) := [(spanNameEvent, .struct [.scalar (.string b!"query")])]
  let recs : SpanID → Recording := fun id => sampleRecording (if id.parent = 0 then root else leaf)
  let tr : Tree := .node ⟨⟨1, 5, 0⟩, []⟩ [.node ⟨⟨1, 6, 5⟩, []⟩ []]
  have h5 : (recs ⟨1, 5, 0⟩).Proper ⟨1, 5, 0⟩ := sampleRecording_proper root _
    (by intro e he; simp only [root, List.mem_cons, List.not_mem_nil, or_false] at he; rcases he with rfl | rfl <;>
      exact ⟨by simp [libraryEvents], by decide⟩) (by decide) (by decide)
  have h6 : (recs ⟨1, 6, 5⟩).Proper ⟨1, 6, 5⟩ := sampleRecording_proper leaf _
    (by intro e he; rw [List.mem_singleton.1 he]; exact ⟨by simp [libraryEvents], by decide⟩) (by decide) (by decide)
  obtain ⟨ms, hms⟩ := collect_never_panics
    [.collect ⟨1, 6, 5⟩ ((recs ⟨1, 6, 5⟩).before.flatMap eventAnnotations), .collect ⟨2, 6, 5⟩ [],
      .collect ⟨1, 5, 0⟩ ((recs ⟨1, 5, 0⟩).before.flatMap eventAnnotations)]
  refine ⟨_, _, ms, tr, recs, rfl, hms, ⟨⟨1, 5, rfl⟩, ?_, by decide, by decide⟩, by decide, ?_, ?_⟩
  · intro e he
    rw [List.mem_singleton.1 he]
    exact ⟨6, rfl⟩
  · intro sp hsp
    simp only [tr, Tree.spans, Tree.spansList, List.append_nil, List.mem_cons, List.not_mem_nil, or_false] at hsp
    rcases hsp with rfl | rfl
    · exact ⟨h5, by simp [recs, sampleRecording, root]⟩
    · exact ⟨h6, by simp [recs, sampleRecording, leaf]⟩
  · simp only [tr, Tree.spans, Tree.spansList, List.append_nil, List.flatMap_cons, List.flatMap_nil, proper_calls h5, proper_calls h6]
    exact List.Perm.swap _ _ _

/-- A `ChunkedCollector` got the calls of two recorders, with three events, and has handed them on in one flush.  All hypotheses of
`recorded_program_shown_chunked` are met. -/
example : ∃ (cfg : Chunked.Cfg) (s : Chunked.State) (tr : Tree) (recs : SpanID → Recording),
    CausalTree tr ∧ tr.spans.length = 2 ∧ (∀ sp ∈ tr.spans, (recs sp.id).Proper sp.id ∧ (recs sp.id).events ≠ []) ∧
    Chunked.Reachable cfg s ∧ s.pending = [] ∧ (∀ F ∈ s.flushes, F.remaining = []) ∧ Chunked.droppedCalls s.history = [] ∧
    (forTrace tr.span.id.trace (Chunked.acceptedCalls s.history)).Perm
      (tr.spans.flatMap fun sp => (recs sp.id).calls sp.id) := by
  let root : List (EventType × GVal) :=
    [(spanNameEvent, .struct [.scalar (.string b!"home")]), (msgEvent, .struct [.scalar (.string b!"hello")])]
  let leaf : List (EventType × GVal) := [(spanNameEvent, .struct [.scalar (.string b!"query")])]
  let recs : SpanID → Recording := fun id => sampleRecording (if id.parent = 0 then root else leaf)
  let tr : Tree := .node ⟨⟨1, 5, 0⟩, []⟩ [.node ⟨⟨1, 6, 5⟩, []⟩ []]
  have h5 : (recs ⟨1, 5, 0⟩).Proper ⟨1, 5, 0⟩ := sampleRecording_proper root _
    (by intro e he; simp only [root, List.mem_cons, List.not_mem_nil, or_false] at he; rcases he with rfl | rfl <;>
      exact ⟨by simp [libraryEvents], by decide⟩) (by decide) (by decide)
  have h6 : (recs ⟨1, 6, 5⟩).Proper ⟨1, 6, 5⟩ := sampleRecording_proper leaf _
    (by intro e he; rw [List.mem_singleton.1 he]; exact ⟨by simp [libraryEvents], by decide⟩) (by decide) (by decide)
  have hc : (tr.spans.flatMap fun sp => (recs sp.id).calls sp.id) =
      [(⟨1, 5, 0⟩, (recs ⟨1, 5, 0⟩).before.flatMap eventAnnotations), (⟨1, 6, 5⟩, (recs ⟨1, 6, 5⟩).before.flatMap eventAnnotations)] := by
    simp only [tr, Tree.spans, Tree.spansList, List.append_nil, List.flatMap_cons, List.flatMap_nil, proper_calls h5, proper_calls h6,
      List.singleton_append]
  generalize ha : (recs ⟨1, 5, 0⟩).before.flatMap eventAnnotations = a at hc
  generalize hb : (recs ⟨1, 6, 5⟩).before.flatMap eventAnnotations = b at hc
  have r1 := Chunked.Reachable.init.step (.collect _ (⟨1, 6, 5⟩, b) : Chunked.Step ⟨0, true⟩ _ _)
  have r2 := r1.step (.collect _ (⟨1, 5, 0⟩, a))
  have r3 := r2.step (.flush _)
  have r4 := r3.step (.send _ _ [] [] (⟨1, 5, 0⟩, a) [(⟨1, 6, 5⟩, b)] [] none rfl rfl)
  have r5 := r4.step (.send _ _ [] [] (⟨1, 6, 5⟩, b) [] [] none rfl rfl)
  refine ⟨_, _, tr, recs, ⟨⟨1, 5, rfl⟩, ?_, by decide, by decide⟩, by decide, ?_, r5, rfl, ?_, rfl, ?_⟩
  · intro e he
    rw [List.mem_singleton.1 he]
    exact ⟨6, rfl⟩
  · intro sp hsp
    simp only [tr, Tree.spans, Tree.spansList, List.append_nil, List.mem_cons, List.not_mem_nil, or_false] at hsp
    rcases hsp with rfl | rfl
    · exact ⟨h5, by simp [recs, sampleRecording, root]⟩
    · exact ⟨h6, by simp [recs, sampleRecording, leaf]⟩
  · intro F hF
    rw [List.mem_singleton.1 hF]
    rfl
  · rw [hc]
    exact List.Perm.swap _ _ _

end Appdash
