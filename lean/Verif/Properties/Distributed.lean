import Verif.Proofs.Distributed
import Verif.Properties.OpenTracingShown
import Verif.Properties.Services

/-!
# C122: programs that consist of several processes, traced through the network
-/

namespace Appdash
open Spec

/-- **C122** (services).  The services of a distributed program (C115) run in any number of processes; each sends to the server through a
`RemoteCollector` of its own.  When the server has handled everything, its store shows the tree of the program's requests, calls and
spans, and the events of each of them. -/
theorem services_shown_by_server {reg : Registry} (hreg : registerAll libraryEvents [] = some reg) {root : Handled} (hok : root.Ok)
    (hfirst : root.req.header.Lacks b!"Span-Id" ∧ root.req.header.Lacks b!"Parent-Span-Id")
    (hd : (root.tree.spans.map fun sp => sp.id.span).Nodup) (hz : ∀ sp ∈ root.tree.spans, sp.id.span ≠ 0)
    {procs : List (Mutex.Config remoteMachine)} (hp : ∀ c ∈ procs, ProcessDone c)
    (hsent : (forTrace root.req.id.trace (procs.flatMap fun c => accepted c.log)).Perm root.deliveries)
    {s : ServerState} (hs : ServerDone s procs root.req.id.trace) :
    ∃ tr, s.store.view root.req.id.trace = .found tr ∧ TreeEquiv (reannotate (fun _ => []) tr) root.tree ∧
      ∀ sp ∈ tr.spans, ∃ evs, unmarshalEvents reg sp.annotations = some (evs, none) ∧ root.Shows sp.id evs :=
  services_shown hreg (server_calls_stored hs.reach) hok hfirst hd hz ((serverDone_live hs hp).trans hsent)

/-- **C122** (OpenTracing).  The spans of a trace are made in any number of processes; each has a tracer of its own, which sends to the
server through a `RemoteCollector` of its own, on one connection.  When the server has handled everything, its store shows the tree of the
program's spans, and the annotations of each span are a record of it. -/
theorem opentracing_shown_by_server {env : OTEnv} {procs : List (OTState × Mutex.Config remoteMachine)} {tr : Tree}
    (hp : ∀ p ∈ procs, OTProcess env tr.span.id.trace p.1 p.2) (hT : TracedAs (procs.flatMap fun p => finishedSpans p.1) tr)
    {s : ServerState} (hs : ServerDone s (procs.map Prod.snd) tr.span.id.trace) :
    ∃ tr', s.store.view tr.span.id.trace = .found tr' ∧ TreeEquiv (reannotate (fun _ => []) tr') (reannotate (fun _ => []) tr) ∧
      ∀ p ∈ procs, ∀ sp ∈ finishedSpans p.1, sp.trace = tr.span.id.trace →
        ∃ u ∈ tr'.spans, u.id = spanIDOf sp ∧ ShowsSpan env sp u.annotations := by
  obtain ⟨S, hS, e1, e2, e3⟩ := ot_merge_all (env := env) (procs.map Prod.fst) (by
    intro s hs
    obtain ⟨p, hp', rfl⟩ := List.mem_map.1 hs
    exact (hp p hp').reach)
  have hfin : finishedSpans S = procs.flatMap fun p => finishedSpans p.1 := by
    simp only [finishedSpans, e1, List.flatMap_map, List.map_flatMap]
  have hdone : ∀ c ∈ procs.map Prod.snd, ProcessDone c := by
    intro c hc
    obtain ⟨p, hp', rfl⟩ := List.mem_map.1 hc
    exact (hp p hp').done
  have hacc : ∀ p ∈ procs, ∀ e ∈ accepted p.2.log, e.1.trace = tr.span.id.trace → e ∈ collectedBy p.1 := by
    intro p hp' e he ht
    have : e ∈ forTrace tr.span.id.trace (accepted p.2.log) := List.mem_filter.2 ⟨he, by simpa using ht⟩
    rw [(hp p hp').sends] at this
    exact (List.mem_filter.1 this).1
  have hlive := serverDone_live hs hdone
  rw [List.flatMap_map] at hlive
  have hcoll : collectedBy S = procs.flatMap fun p => collectedBy p.1 := by rw [e2, List.flatMap_map]
  have hknownS : ∀ e ∈ collectedBy S, e.1.trace = tr.span.id.trace → ∃ v ∈ tr.spans, e.1 = v.id := by
    intro e he ht
    obtain ⟨c, hc', rfl⟩ := List.mem_map.1 he
    obtain ⟨i, sp, acts, hi, -, hid, -⟩ := call_thread hS hc'
    simp only at ht
    have : spanIDOf sp ∈ tr.spans.map Span.id := hT.spans.subset (List.mem_map.2
      ⟨sp, List.mem_filter.2 ⟨hfin ▸ List.mem_map.2 ⟨_, List.mem_of_getElem? hi, rfl⟩, by
        rw [hid] at ht; simpa using show sp.trace = _ from ht⟩, rfl⟩)
    obtain ⟨v, hv, e⟩ := List.mem_map.1 this
    exact ⟨v, hv, by rw [e]; exact hid⟩
  have hmemS : ∀ e ∈ procs.flatMap fun p => accepted p.2.log, e.1.trace = tr.span.id.trace → e ∈ collectedBy S := by
    intro e he ht
    obtain ⟨p, hp', hep⟩ := List.mem_flatMap.1 he
    rw [hcoll]
    exact List.mem_flatMap.2 ⟨p, hp', hacc p hp' e hep ht⟩
  have hcalls : ∀ e ∈ s.calls.map Prod.snd, e.1.trace = tr.span.id.trace → ∃ v ∈ tr.spans, e.1 = v.id := by
    intro e he ht
    have h1 : e ∈ live tr.span.id.trace (s.calls.map fun c => StoreOp.collect c.2.1 c.2.2) := by
      rw [server_live]
      exact List.mem_filter.2 ⟨he, by simpa using ht⟩
    exact hknownS e (hmemS e (List.mem_filter.1 (hlive.subset h1)).1 ht) ht
  -- the order of a span's annotations
  have horder : ∀ u ∈ tr.spans, Chunked.annotationsOf u.id (s.calls.map Prod.snd) = Chunked.annotationsOf u.id (collectedBy S) := by
    intro u hu
    have hut := hT.tree.trace u hu
    obtain ⟨others, hconn, -, hoth⟩ := hs.conns
    rw [List.flatMap_map] at hconn
    have hpk := hconn.map packetsOf
    rw [List.map_map, List.map_append] at hpk
    have hone : OneHas u.id ((procs.flatMap fun p => p.2.shared.conns.map Conn.bytes).map packetsOf ++ others.map packetsOf) := by
      have hno : ∀ L ∈ others.map packetsOf, u.id ∉ L.map Prod.fst := by
        intro L hL hm
        obtain ⟨b, hb, rfl⟩ := List.mem_map.1 hL
        obtain ⟨d, hd, e⟩ := List.mem_map.1 hm
        exact hoth b hb d hd (by rw [e, hut])
      refine List.pairwise_append.2 ⟨?_, ?_, fun a _ b hb => .inr (hno b hb)⟩
      · rw [List.map_flatMap, List.pairwise_flatMap]
        constructor
        · intro p hp'
          have := (hp p hp').steady
          match hcn : p.2.shared.conns, this with
          | [], _ => exact .nil
          | [k], _ => exact List.pairwise_singleton _ _
        · have hnd : (procs.flatMap fun p => ((finishedSpans p.1).filter fun sp => sp.trace = tr.span.id.trace).map spanIDOf).Nodup := by
            have h1 := hT.spans
            rw [List.filter_flatMap, List.map_flatMap] at h1
            refine h1.nodup_iff.2 (List.Nodup.of_map SpanID.span ?_)
            rw [List.map_map]
            exact hT.tree.distinct
          refine List.Pairwise.imp_of_mem ?_ (List.nodup_flatMap.1 hnd).2
          intro p q hp' hq' hdis x hx y hy
          have hin : ∀ r ∈ procs, ∀ z ∈ (r.2.shared.conns.map Conn.bytes).map packetsOf, u.id ∈ z.map Prod.fst →
              u.id ∈ ((finishedSpans r.1).filter fun sp => sp.trace = tr.span.id.trace).map spanIDOf := by
            intro r hr z hz hm
            obtain ⟨d, hd, e⟩ := List.mem_map.1 hm
            have h1 : d ∈ accepted r.2.log := by
              rw [← processDone_arrived (hp r hr).done]
              rw [List.map_map] at hz
              obtain ⟨k, hk, rfl⟩ := List.mem_map.1 hz
              exact List.mem_flatMap.2 ⟨k, hk, hd⟩
            have h2 := hacc r hr d h1 (by rw [e, hut])
            obtain ⟨c, hc', hcd⟩ := List.mem_map.1 h2
            obtain ⟨v, hrv⟩ := (hp r hr).reach
            obtain ⟨i, sp, acts, hi, -, hid, -⟩ := call_thread hrv hc'
            have hsid : spanIDOf sp = u.id := by rw [← hid, ← e, ← hcd]
            refine List.mem_map.2 ⟨sp, List.mem_filter.2 ⟨List.mem_map.2 ⟨_, List.mem_of_getElem? hi, rfl⟩, ?_⟩, hsid⟩
            have : (spanIDOf sp).trace = tr.span.id.trace := by rw [hsid, hut]
            simpa using show sp.trace = _ from this
          by_cases hxm : u.id ∈ x.map Prod.fst
          · right
            intro hym
            exact hdis (hin p hp' x hx hxm) (hin q hq' y hy hym)
          · exact .inl hxm
      · refine (List.pairwise_iff_forall_sublist.2 ?_)
        intro a b hab
        exact .inl (hno a (hab.subset (by simp)))
    have hsym : ∀ {a b : List Delivery}, u.id ∉ a.map Prod.fst ∨ u.id ∉ b.map Prod.fst → u.id ∉ b.map Prod.fst ∨ u.id ∉ a.map Prod.fst :=
      fun h => h.symm
    have hone' : OneHas u.id (s.conns.map (packetsOf ∘ SrvConn.received)) := (hpk.pairwise_iff hsym).2 hone
    rw [annotationsOf_server hs.reach hs.settled (serverDone_alive hs hdone) hs.unbroken hone']
    have h2 := annotationsOf_flatten_perm hpk hone'
    have h3 : Chunked.annotationsOf u.id (s.conns.map fun k => packetsOf k.received).flatten =
        Chunked.annotationsOf u.id (s.conns.map (packetsOf ∘ SrvConn.received)).flatten := rfl
    rw [h3, h2, List.flatten_append, Chunked.annotationsOf_append, annotationsOf_missing (L := (others.map packetsOf).flatten), List.append_nil]
    · have h4 : ((procs.flatMap fun p => p.2.shared.conns.map Conn.bytes).map packetsOf).flatten = procs.flatMap fun p => accepted p.2.log := by
        rw [← List.flatMap_def, List.flatMap_assoc, List.flatMap_def, List.flatMap_def]
        congr 1
        refine List.map_congr_left fun p hp' => ?_
        rw [List.flatMap_map]
        exact processDone_arrived (hp p hp').done
      rw [h4, hcoll]
      have h5 : ∀ L : List Delivery, Chunked.annotationsOf u.id (forTrace tr.span.id.trace L) = Chunked.annotationsOf u.id L := by
        intro L
        induction L with
        | nil => rfl
        | cons d L ih =>
          rw [Chunked.annotationsOf_cons, ← ih]
          by_cases hdt : d.1.trace = tr.span.id.trace
          · simp only [forTrace, List.filter_cons, hdt, decide_true, if_true, Chunked.annotationsOf_cons]
          · have hne : d.1 ≠ u.id := fun h => hdt (by rw [h, hut])
            simp only [forTrace, List.filter_cons, hdt, decide_false, Bool.false_eq_true, if_false, if_neg hne, List.nil_append]
      have h6 : ∀ l : List (OTState × Mutex.Config remoteMachine), (∀ p ∈ l, p ∈ procs) →
          Chunked.annotationsOf u.id (l.flatMap fun p => accepted p.2.log) = Chunked.annotationsOf u.id (l.flatMap fun p => collectedBy p.1) := by
        intro l
        induction l with
        | nil => intro _; rfl
        | cons p l ih =>
          intro hl
          rw [List.flatMap_cons, List.flatMap_cons, Chunked.annotationsOf_append, Chunked.annotationsOf_append,
            ih fun p hp => hl p (List.mem_cons_of_mem _ hp), ← h5 (accepted p.2.log), (hp p (hl p List.mem_cons_self)).sends, h5]
      exact h6 procs fun p hp => hp
    · intro hm
      obtain ⟨d, hd, e⟩ := List.mem_map.1 hm
      obtain ⟨L, hL, hdL⟩ := List.mem_flatten.1 hd
      obtain ⟨b, hb, rfl⟩ := List.mem_map.1 hL
      exact hoth b hb d hdL (by rw [e, hut])
  obtain ⟨tr', h1, h2, h3⟩ := opentracing_view hS (by
      intro th hth
      rw [e1] at hth
      obtain ⟨s', hs', hth⟩ := List.mem_flatMap.1 hth
      obtain ⟨p, hp', rfl⟩ := List.mem_map.1 hs'
      exact (hp p hp').returned th hth) (by
      intro c hc
      obtain ⟨s', hs', c', hc', e⟩ := e3 c hc
      obtain ⟨p, hp', rfl⟩ := List.mem_map.1 hs'
      rw [e]
      exact (hp p hp').ok c' hc') (hfin ▸ hT) (server_calls_stored hs.reach) (by
      intro e he
      have h1 := List.mem_filter.1 (hlive.subset he)
      exact ⟨e, hmemS e h1.1 (by simpa using h1.2), rfl⟩) (by
      intro e he
      obtain ⟨h1, h2⟩ := List.mem_filter.1 he
      refine ⟨e, hlive.symm.subset ?_, rfl⟩
      rw [hcoll] at h1
      obtain ⟨p, hp', hep⟩ := List.mem_flatMap.1 h1
      have : e ∈ forTrace tr.span.id.trace (collectedBy p.1) := List.mem_filter.2 ⟨hep, h2⟩
      rw [← (hp p hp').sends] at this
      exact List.mem_filter.2 ⟨List.mem_flatMap.2 ⟨p, hp', (List.mem_filter.1 this).1⟩, h2⟩) (by
      intro u hu
      rw [server_live, annotationsOf_wholeID hT.tree hu _ hcalls, annotationsOf_wholeID hT.tree hu _ hknownS]
      exact horder u hu)
  refine ⟨tr', h1, h2, ?_⟩
  intro p hp' sp hsp
  exact h3 sp (by rw [hfin]; exact List.mem_flatMap.2 ⟨p, hp', hsp⟩)

/-! ## Two services in two processes -/

/-- A possible result of recording a name and an event. -/
def recOf (span : SpanID) (name : Bytes) (E : EventType) (v : GVal) : Recorder :=
  ((Recorder.new false span).run ⟨fun _ _ => none, fun _ _ _ => []⟩
    ([RecOp.event (.ok ((flatten spanNameEvent.type [] (nameValue name)).map annotationOf ++ [schemaMarker spanNameEvent.schema]))] ++
      [.event (.ok ((flatten E.type [] v).map annotationOf ++ [schemaMarker E.schema])), .finish])).1

theorem recOf_records (span : SpanID) (name : Bytes) (E : EventType) (hE : E.marshaler = none) (v : GVal) :
    RecordsEvent ⟨fun _ _ => none, fun _ _ _ => []⟩ span (some name) E v (recOf span name E v) := by
  refine ⟨_, _, ⟨_, ⟨_, .refl _, rfl⟩, rfl⟩, ?_, rfl⟩
  unfold Marshals
  rw [hE]
  exact ⟨_, .refl _, rfl⟩

/-- The event of the first service. -/
def frontValue : GVal := .struct [requestInfo sampleReq [],
  responseInfo (((ResponseRecorder.new true).run [.writeHeader 404, .write b!"no"]).partialResponse (setSpanIDHeader [] ⟨1, 2, 0⟩))
    [(b!"Span-Id", SpanID.toText ⟨1, 2, 0⟩)], gString [], gString [], .scalar (.time .zero), .scalar (.time .zero)]

theorem front_served : ∃ out, Serves frontEnv 0 sampleReq [] out ∧ out.recorder = some (recOf ⟨1, 2, 0⟩ b!"Serve shop/" serverEvent frontValue) := by
  refine ⟨⟨some (sampleReq, [], ⟨1, 2, 0⟩), false, false, (ResponseRecorder.new true).run [.writeHeader 404, .write b!"no"], some _, 2⟩,
    ⟨rfl, rfl, rfl, rfl, rfl, requestInfo sampleReq [], [(b!"Span-Id", SpanID.toText ⟨1, 2, 0⟩)], _, ?_,
      ⟨_, _, _, .refl _, .refl _, .refl _, by decide⟩, recOf_records _ _ serverEvent rfl _, rfl⟩, rfl⟩
  show ∃ m, _
  exact ⟨_, ⟨_, _, _, .refl _, .refl _, .refl _, rfl⟩, rfl⟩

/-- The event of the second service. -/
def backValue : GVal := .struct [requestInfo sampleReq [(b!"Span-Id", SpanID.toText ⟨1, 4, 2⟩)],
  responseInfo (((ResponseRecorder.new true).run [.write b!"ok"]).partialResponse (setSpanIDHeader [] ⟨1, 4, 2⟩))
    [(b!"Span-Id", SpanID.toText ⟨1, 4, 2⟩)], gString [], gString [], .scalar (.time .zero), .scalar (.time .zero)]

theorem back_served : ∃ out, Serves backEnv 0 sampleReq [(b!"Span-Id", [SpanID.toText ⟨1, 4, 2⟩])] out ∧
    out.recorder = some (recOf ⟨1, 4, 2⟩ b!"Serve shop/" serverEvent backValue) := by
  have hg : getSpanIDFrom backEnv.src 0 [(b!"Span-Id", [SpanID.toText ⟨1, 4, 2⟩])] = ⟨some ⟨1, 4, 2⟩, headerSpanID, none, 0⟩ := by decide
  refine ⟨⟨some (sampleReq, [(b!"Span-Id", [SpanID.toText ⟨1, 4, 2⟩])], ⟨1, 4, 2⟩), false, false, (ResponseRecorder.new true).run [.write b!"ok"], some _, 0⟩,
    ?_, rfl⟩
  unfold Serves
  rw [hg]
  refine ⟨rfl, rfl, rfl, rfl, rfl, requestInfo sampleReq [(b!"Span-Id", SpanID.toText ⟨1, 4, 2⟩)], [(b!"Span-Id", SpanID.toText ⟨1, 4, 2⟩)], _, ?_,
      ⟨_, _, _, .refl _, .refl _, .refl _, by decide⟩, recOf_records _ _ serverEvent rfl _, rfl⟩
  rw [if_pos rfl]
  exact ⟨_, ⟨_, _, _, .refl _, .refl _, .refl _, by decide⟩, rfl⟩

/-- The event of the call. -/
def callValue : GVal := .struct [requestInfo sampleReq [(b!"Span-Id", SpanID.toText ⟨1, 4, 2⟩)],
  responseInfo ⟨[], [], 2, 200⟩ [], .scalar (.time .zero), .scalar (.time .zero)]

theorem call_made : ∃ out, RoundTrips middleEnv 0 [[]] sampleReq out ∧ out.sentHeader = [(b!"Span-Id", [SpanID.toText ⟨1, 4, 2⟩])] ∧
    out.recorder = recOf ⟨1, 3, 2⟩ b!"Request shop" clientEvent callValue := by
  refine ⟨⟨[[], [(b!"Span-Id", [SpanID.toText ⟨1, 4, 2⟩])]], { sampleReq with header := 1 }, [(b!"Span-Id", [SpanID.toText ⟨1, 4, 2⟩])],
    recOf ⟨1, 3, 2⟩ b!"Request shop" clientEvent callValue, .ok ⟨[], [], 2, 200⟩, 2⟩,
    ⟨rfl, rfl, rfl, rfl, rfl, [(b!"Span-Id", SpanID.toText ⟨1, 4, 2⟩)], responseInfo ⟨[], [], 2, 200⟩ [],
      ⟨_, _, _, .refl _, .refl _, .refl _, by decide⟩, ⟨_, ⟨_, _, _, .refl _, .refl _, .refl _, rfl⟩, rfl⟩,
      recOf_records _ _ clientEvent rfl _⟩, rfl, rfl⟩

/-- Two processes, one for each service; a third client sends garbage.  All hypotheses of `services_shown_by_server` are met. -/
example : ∃ (root : Handled) (procs : List (Mutex.Config remoteMachine)) (s : ServerState), root.Ok ∧
    root.req.header.Lacks b!"Span-Id" ∧ root.req.header.Lacks b!"Parent-Span-Id" ∧
    (root.tree.spans.map fun sp => sp.id.span).Nodup ∧ (∀ sp ∈ root.tree.spans, sp.id.span ≠ 0) ∧
    procs.length = 2 ∧ (∀ c ∈ procs, ProcessDone c) ∧
    (forTrace root.req.id.trace (procs.flatMap fun c => accepted c.log)).Perm root.deliveries ∧
    ServerDone s procs root.req.id.trace ∧ s.conns.length = 3 := by
  obtain ⟨sout, hs, hsr⟩ := front_served
  obtain ⟨cout, hc, hch, hcr⟩ := call_made
  obtain ⟨bout, hb, hbr⟩ := back_served
  rw [← hch] at hb
  obtain ⟨hok, htree⟩ := two_services_ok hs hc hb
  obtain ⟨a, ha1, ha2, ha3⟩ := remote_can_send ((recOf ⟨1, 2, 0⟩ b!"Serve shop/" serverEvent frontValue).calls ++
    ((recOf ⟨1, 3, 2⟩ b!"Request shop" clientEvent callValue).calls ++ ownSpan.recording.calls ownSpan.id)) (by decide +kernel)
  obtain ⟨b, hb1, hb2, hb3⟩ := remote_can_send (recOf ⟨1, 4, 2⟩ b!"Serve shop/" serverEvent backValue).calls (by decide +kernel)
  have hA := ha3 (by decide +kernel)
  have hB := hb3 (by decide +kernel)
  have hdel : (twoServices sout cout bout).deliveries = accepted a.log ++ accepted b.log := by
    rw [ha2, hb2]
    simp only [twoServices, Handled.deliveries, Handled.deliveriesOf, frontReq, backReq, middleCall, hsr, hbr, hcr, Option.elim, List.flatMap_cons,
      List.flatMap_nil, List.append_nil, List.append_assoc]
  obtain ⟨s, s1, s2, s3, s4⟩ := server_can_serve ([2, 7, 7] :: (a.shared.conns.map Conn.bytes ++ b.shared.conns.map Conn.bytes))
  refine ⟨twoServices sout cout bout, [a, b], s, hok, lacks_empty _, lacks_empty _, by rw [htree]; decide, by rw [htree]; decide, rfl, ?_, ?_,
    ⟨s1, s2, s3, [[2, 7, 7]], ?_, ?_, ?_⟩, ?_⟩
  · intro c hc
    rcases List.mem_cons.1 hc with rfl | hc
    · exact ha1
    · rw [List.mem_singleton.1 hc]; exact hb1
  · have : ([a, b].flatMap fun c => accepted c.log) = (twoServices sout cout bout).deliveries := by simp [hdel]
    rw [this, forTrace, List.filter_eq_self.2]
    exact fun d hd => decide_eq_true (two_services_trace hok htree d hd)
  · rw [s4]
    simp only [List.flatMap_cons, List.flatMap_nil, List.append_nil]
    exact (List.perm_append_singleton _ _).symm
  · intro b hb
    rw [List.mem_singleton.1 hb]
    decide
  · intro b hb d hd
    rw [List.mem_singleton.1 hb, show packetsOf [2, 7, 7] = [] by decide] at hd
    cases hd
  · have := congrArg List.length s4
    simp only [List.length_map, List.length_cons, List.length_append] at this
    have e1 := congrArg List.length hA
    have e2 := congrArg List.length hB
    simp only [List.length_map, List.length_cons, List.length_nil] at e1 e2
    omega

/-! ## Two processes with OpenTracing -/

/-- The process that records the request (and a span of another trace). -/
def requestProcess : OTState :=
  ⟨false, false, [(requestSpan, []), (otherSpan, [])], requestCalls.map fun as => ⟨0, ⟨1, 5, 0⟩, as, none, none⟩, []⟩

theorem requestProcess_reached : OTReach sampleOTEnv false requestProcess :=
  .step (.step (.step (.step (.step .new
    (.start _ _ _ request_recorded)) (.start _ otherSpan [] rfl))
    (.collect _ 0 _ _ _ none rfl)) (.collect _ 0 _ _ _ none rfl)) (.collect _ 0 _ _ _ none rfl)

/-- The process that records the query. -/
def queryProcess : OTState := ⟨true, false, [(querySpan, [])], queryCalls.map fun as => ⟨0, ⟨1, 6, 5⟩, as, none, none⟩, []⟩

theorem queryProcess_reached : OTReach sampleOTEnv true queryProcess :=
  .step (.step (.step (.step (.step (.step (.step .new (.start _ _ _ query_recorded))
    (.collect _ 0 _ _ _ none rfl)) (.collect _ 0 _ _ _ none rfl)) (.collect _ 0 _ _ _ none rfl)) (.collect _ 0 _ _ _ none rfl))
    (.collect _ 0 _ _ _ none rfl)) (.collect _ 0 _ _ _ none rfl)

/-- All hypotheses of `opentracing_shown_by_server` are met. -/
example : ∃ (a b : Mutex.Config remoteMachine) (s : ServerState),
    (∀ p ∈ [(requestProcess, a), (queryProcess, b)], OTProcess sampleOTEnv programTree.span.id.trace p.1 p.2) ∧
    TracedAs ([(requestProcess, a), (queryProcess, b)].flatMap fun p => finishedSpans p.1) programTree ∧
    ServerDone s ([(requestProcess, a), (queryProcess, b)].map Prod.snd) programTree.span.id.trace ∧ s.conns.length = 3 := by
  obtain ⟨a, ha1, ha2, ha3⟩ := remote_can_send (collectedBy requestProcess) (by decide +kernel)
  obtain ⟨b, hb1, hb2, hb3⟩ := remote_can_send (collectedBy queryProcess) (by decide +kernel)
  have hA := ha3 (by decide)
  have hB := hb3 (by decide)
  have lenA : a.shared.conns.length = 1 := by simpa using congrArg List.length hA
  have lenB : b.shared.conns.length = 1 := by simpa using congrArg List.length hB
  obtain ⟨s, s1, s2, s3, s4⟩ := server_can_serve (b.shared.conns.map Conn.bytes ++ a.shared.conns.map Conn.bytes ++ [[2, 7, 7]])
  refine ⟨a, b, s, ?_, ?_, ⟨s1, s2, s3, [[2, 7, 7]], ?_, ?_, ?_⟩, ?_⟩
  · intro p hp
    rcases List.mem_cons.1 hp with rfl | hp
    · exact ⟨⟨_, requestProcess_reached⟩, by simp [requestProcess], by simp [requestProcess], by rw [ha2], ha1, Nat.le_of_eq lenA⟩
    · rw [List.mem_singleton.1 hp]
      exact ⟨⟨_, queryProcess_reached⟩, by simp [queryProcess], by simp [queryProcess], by rw [hb2], hb1, Nat.le_of_eq lenB⟩
  · refine ⟨program_traced.tree, (show ((([requestSpan, otherSpan, querySpan].filter fun sp => sp.trace = programTree.span.id.trace).map spanIDOf).Perm
      (programTree.spans.map Span.id)) by decide), ?_⟩
    intro sp hsp ht
    refine program_traced.sampled sp ?_ ht
    simp only [finishedSpans, requestProcess, queryProcess, afterProgram, List.flatMap_cons, List.flatMap_nil, List.map_cons, List.map_nil,
      List.append_nil, List.cons_append, List.nil_append, List.mem_cons, List.not_mem_nil, or_false] at hsp ⊢
    tauto
  · rw [s4]
    simp only [List.map_cons, List.map_nil, List.flatMap_cons, List.flatMap_nil, List.append_nil]
    exact (List.perm_append_comm).append_right _
  · intro b hb
    rw [List.mem_singleton.1 hb]
    decide
  · intro b hb d hd
    rw [List.mem_singleton.1 hb, show packetsOf [2, 7, 7] = [] by decide] at hd
    cases hd
  · have := congrArg List.length s4
    simp only [List.length_map, List.length_append, List.length_cons, List.length_nil] at this
    omega

/-! ## C123: the order in which the server stores what one collector sends -/

/-- The full statement of **C123**: the server's store gets what a `RemoteCollector` accepted, in the order of its `Collect` calls. -/
def RemoteOrderKept : Prop :=
  ∀ (c : Mutex.Config remoteMachine) (s : ServerState), ProcessDone c → ServerReachable s → Settled s → s.crashed = false →
    (∀ k ∈ s.conns, k.broken = false) → s.conns.map SrvConn.received = c.shared.conns.map Conn.bytes →
    s.calls.map Prod.snd = accepted c.log

/-- **C123**, what holds: so it is if the collector needed no second connection. -/
theorem remote_order_partial (c : Mutex.Config remoteMachine) (s : ServerState) (hc : ProcessDone c) (hs : ServerReachable s) (hset : Settled s)
    (hcr : s.crashed = false) (hb : ∀ k ∈ s.conns, k.broken = false)
    (hconn : s.conns.map SrvConn.received = c.shared.conns.map Conn.bytes) (hone : c.shared.conns.length ≤ 1) :
    s.calls.map Prod.snd = accepted c.log := by
  rw [← processDone_arrived hc]
  have hlen : s.conns.length = c.shared.conns.length := by simpa using congrArg List.length hconn
  have hfut := (server_inv hs).future
  match hcn : c.shared.conns, hone with
  | [], _ =>
    have : s.calls = [] := by
      rw [List.eq_nil_iff_forall_not_mem]
      intro x hx
      have := hfut x hx
      rw [hlen, hcn] at this
      simp at this
    rw [this]; rfl
  | [k], _ =>
    rw [hcn] at hconn hlen
    match hsn : s.conns, hlen with
    | [k'], _ =>
      have h0 := server_settled_client hs hset hcr (i := 0) (k := k') (by rw [hsn]; rfl) (hb k' (by rw [hsn]; simp))
      have hall : s.calls.filter (·.1 == 0) = s.calls := by
        rw [List.filter_eq_self]
        intro x hx
        have := hfut x hx
        rw [hsn] at this
        simp only [List.length_singleton, Nat.lt_one_iff] at this
        simpa using this
      rw [ServerState.callsFrom, hall] at h0
      rw [h0]
      rw [hsn] at hconn
      simp only [List.map_cons, List.map_nil, List.cons.injEq, and_true] at hconn
      simp [hconn]

/-- The connection breaks between two calls. -/
theorem reconnected_run : ∃ c, ProcessDone c ∧ accepted c.log = [(⟨1, 5, 0⟩, []), (⟨1, 6, 0⟩, [])] ∧
    c.shared.conns.map Conn.bytes = [tinyFrame 5, tinyFrame 6] := by
  obtain ⟨c1, h1, h2, h3, h4, h5⟩ := call_alone (Mutex.Reachable.init (M := remoteMachine) (s := {})) rfl (fun _ => rfl)
    (op := RemoteCall.collect (⟨1, 5, 0⟩, [])) (.more (RemoteStep.checkNone _ (⟨1, 5, 0⟩, []) rfl) (.more (RemoteStep.disconnect _ _)
      (.more (RemoteStep.dialOk _ _) (.more (RemoteStep.len2Ok _ _ 0 none _ rfl) (.done (RemoteStep.msg2Ok _ _ 0 none _ rfl))))))
  obtain ⟨c2, k1, k2, k3, k4, k5⟩ := call_alone h1 h2 h3
    (op := RemoteCall.collect (⟨1, 6, 0⟩, [])) (by
      rw [h4]
      exact .more (RemoteStep.checkSome _ (⟨1, 6, 0⟩, []) 0 rfl) (.more (RemoteStep.len1Err _ _ 0 (some 0) _ rfl)
        (.more (RemoteStep.disconnect _ _)
      (.more (RemoteStep.dialOk _ _) (.more (RemoteStep.len2Ok _ _ 1 none _ rfl) (.done (RemoteStep.msg2Ok _ _ 1 none _ rfl)))))))
  have hlog : c2.log = [(0, .collect (⟨1, 5, 0⟩, []), true), (0, .collect (⟨1, 6, 0⟩, []), true)] := by rw [k5, h5]; rfl
  have hconns : c2.shared.conns.map Conn.bytes = [tinyFrame 5, tinyFrame 6] := by rw [k4]; decide
  refine ⟨c2, ⟨k1, k2, ?_, ?_⟩, by rw [hlog]; rfl, hconns⟩
  · rw [hlog]
    decide +kernel
  · have : (c2.shared.conns.flatMap fun k => packetsOf k.bytes) = (c2.shared.conns.map Conn.bytes).flatMap packetsOf := by
      rw [List.flatMap_map]
    rw [this, hconns, hlog]
    decide

/-- The server handles the second connection before the first. -/
theorem second_connection_first : ∃ s, ServerReachable s ∧ Settled s ∧ s.crashed = false ∧ (∀ k ∈ s.conns, k.broken = false) ∧
    s.conns.map SrvConn.received = [tinyFrame 5, tinyFrame 6] ∧ s.calls = [(1, (⟨1, 6, 0⟩, [])), (0, (⟨1, 5, 0⟩, []))] := by
  have h0 : readNow (tinyFrame 6) false = some (.ok (newCollectPacket ⟨1, 6, 0⟩ []) []) := by decide
  have h1 : readNow (tinyFrame 5) false = some (.ok (newCollectPacket ⟨1, 5, 0⟩ []) []) := by decide
  obtain ⟨ms1, m1⟩ : ∃ ms, MemStore.new.collect ⟨1, 6, 0⟩ [] = some ms := ⟨_, rfl⟩
  obtain ⟨ms2, m2⟩ : ∃ ms, ms1.collect ⟨1, 5, 0⟩ [] = some ms := by
    obtain ⟨ms, h⟩ := collect_never_panics [.collect ⟨1, 6, 0⟩ [], .collect ⟨1, 5, 0⟩ []]
    simp only [MemStore.run, MemStore.step, m1] at h
    cases h' : ms1.collect ⟨1, 5, 0⟩ [] with
    | none => rw [h'] at h; cases h
    | some ms => exact ⟨ms, rfl⟩
  have r1 := ServerReachable.init.step (.accept rfl rfl) |>.step (.spawn rfl rfl) |>.step (.accept rfl rfl) |>.step (.spawn rfl rfl)
  have r2 := r1.step (.arrive (i := 0) (b := tinyFrame 5) rfl rfl)
  have r3 := r2.step (.arrive (i := 1) (b := tinyFrame 6) rfl rfl)
  have r4 := r3.step (.handler (.collect (i := 1) (p := newCollectPacket ⟨1, 6, 0⟩ []) (rest := []) (id := ⟨1, 6, 0⟩) (as := []) rfl rfl rfl h0 rfl rfl m1))
  have r5 := r4.step (.handler (.collect (i := 0) (p := newCollectPacket ⟨1, 5, 0⟩ []) (rest := []) (id := ⟨1, 5, 0⟩) (as := []) rfl rfl rfl h1 rfl rfl m2))
  refine ⟨_, r5, ?_, rfl, ?_, rfl, rfl⟩
  · have hn : readNow [] false = none := rfl
    refine settled_of_waiting fun i k hk hr => ?_
    match i, hk with
    | 0, hk => injection hk with hk; subst hk; exact hn
    | 1, hk => injection hk with hk; subst hk; exact hn
    | n + 2, hk => cases hk
  · intro k hk
    have hk : k ∈ [_, _] := hk
    simp only [List.mem_cons, List.not_mem_nil, or_false] at hk
    rcases hk with rfl | rfl <;> rfl

/-- **C123**.  After a broken connection the order may change: the server reads each connection in its own goroutine. -/
theorem remote_order_changes : ¬ RemoteOrderKept := by
  intro h
  obtain ⟨c, c1, c2, c3⟩ := reconnected_run
  obtain ⟨s, s1, s2, s3, s4, s5, s6⟩ := second_connection_first
  have := h c s c1 s1 s2 s3 s4 (by rw [s5, c3])
  rw [s6, c2] at this
  exact absurd this (by decide)

/-- The hypotheses of `remote_order_partial` are met by a collector that sends two packets. -/
example : ∃ (c : Mutex.Config remoteMachine) (s : ServerState), ProcessDone c ∧ ServerReachable s ∧ Settled s ∧ s.crashed = false ∧
    (∀ k ∈ s.conns, k.broken = false) ∧ s.conns.map SrvConn.received = c.shared.conns.map Conn.bytes ∧ c.shared.conns.length = 1 ∧
    s.calls.map Prod.snd = [(⟨1, 5, 0⟩, []), (⟨1, 6, 0⟩, [])] := by
  obtain ⟨a, ha1, ha2, ha3⟩ := remote_can_send [(⟨1, 5, 0⟩, []), (⟨1, 6, 0⟩, [])] (by decide +kernel)
  have hA := ha3 (by decide)
  have lenA : a.shared.conns.length = 1 := by simpa using congrArg List.length hA
  obtain ⟨s, s1, s2, s3, s4⟩ := server_can_serve (a.shared.conns.map Conn.bytes)
  have hcr : s.crashed = false := serverDone_alive (procs := [a]) (t := 0)
    ⟨s1, s2, s3, [], by simp [s4], (fun b hb => by cases hb), (fun b hb => by cases hb)⟩ (by simpa using ha1)
  exact ⟨a, s, ha1, s1, s2, hcr, s3, s4, lenA, by rw [remote_order_partial a s ha1 s1 s2 hcr s3 s4 (by omega), ha2]⟩

end Appdash
