import Verif.Spec.ExampleOpenTracing
import Verif.Properties.OpenTracingShown
import Verif.Properties.ExampleWebapp
import Verif.Proofs.ExampleOpenTracing

/-!
# Property C154: the example `webapp-opentracing`
-/

namespace Appdash.ExampleOT

open Spec

/-! ## The spans of the handlers -/

/-- **C154** (tags of the visit).  What is shown of the span of `Home` has the host and the address of the request, each of its header
fields, with its values separated by commas, the user, and the status of the last response. -/
theorem home_shown {env : OTEnv} {trace span : ID} {start : GoTime} {duration : Int} {r : Request} {h : Header} {user : Bytes}
    {calls : List OTOutcome} {as : List Annotation} (hs : ShowsSpan env (otHomeSpan trace span start duration r h user calls) as)
    (hn : h.keys.Nodup) :
    annotationsName as = r.urlPath ∧ ⟨b!"Request.Host", some r.host⟩ ∈ as ∧ ⟨b!"Request.Address", some r.remoteAddr⟩ ∈ as ∧
      (∀ k v, (k, v) ∈ h → ⟨b!"Request.Header." ++ k, some (joinWith b!", " v)⟩ ∈ as) ∧ ⟨b!"User", some user⟩ ∈ as ∧
      ∀ s, lastStatus calls = some s → ⟨b!"Response.Status", some s⟩ ∈ as := by
  obtain ⟨h1, h2, -⟩ := shown_span hs
  obtain ⟨-, -, -, h3, -, h4, -, h5⟩ := foldl_fields calls
    { sampled := defaultShouldSample trace, trace := trace, span := span, parent := 0, operation := r.urlPath, start := start
      duration := duration, logs := []
      tags := addHeaderTags (AMap.set (AMap.set [] b!"Request.Host" r.host) b!"Request.Address" r.remoteAddr) h
      baggage := AMap.set [] b!"User" user }
  have tag : ∀ k v, AMap.get (otHomeSpan trace span start duration r h user calls).tags k = some v → ⟨k, some v⟩ ∈ as :=
    fun k v hg => h2 (k, v) (.inl (AMap.mem_of_get hg))
  refine ⟨h1.trans h3, tag _ _ ?_, tag _ _ ?_, ?_, h2 (b!"User", user) (.inr ?_), ?_⟩
  · rw [otHomeSpan, h5, if_neg (by decide)]
    dsimp only
    rw [headerTags_other (by intro s e; cases e)]
    rfl
  · rw [otHomeSpan, h5, if_neg (by decide)]
    dsimp only
    rw [headerTags_other (by intro s e; cases e)]
    rfl
  · intro k v hm
    refine tag _ _ ?_
    rw [otHomeSpan, h5, if_neg (by intro e; cases e)]
    exact headerTags_get h _ hn hm
  · rw [otHomeSpan, h4]
    exact List.mem_singleton.2 rfl
  · intro s hs
    refine tag _ _ ?_
    rw [otHomeSpan, h5, if_pos rfl, hs]
    rfl

/-- **C154** (tags of a request to the endpoint).  What is shown of its span has the host and the method of the request, each of its header
fields, and the baggage of the context that it carried. -/
theorem endpoint_shown {env : OTEnv} {extract : Header → Option OTContext} {span : ID} {start : GoTime} {duration : Int} {r : Request} {h : Header}
    {sp : RawSpan} {ctx : OTContext} (he : extract h = some ctx) (hsp : otEndpointSpan extract span start duration r h = some sp)
    {as : List Annotation} (hs : ShowsSpan env sp as) (hn : h.keys.Nodup) :
    annotationsName as = r.urlPath ∧ ⟨b!"Request.Host", some r.host⟩ ∈ as ∧ ⟨b!"Request.Method", some r.method⟩ ∈ as ∧
      (∀ k v, (k, v) ∈ h → ⟨b!"Request.Header." ++ k, some (joinWith b!", " v)⟩ ∈ as) ∧
      ∀ k v, (k, v) ∈ ctx.baggage → ⟨k, some v⟩ ∈ as := by
  obtain ⟨h1, h2, -⟩ := shown_span hs
  rw [otEndpointSpan, he] at hsp
  cases hsp
  have tag : ∀ k v, AMap.get (addHeaderTags (AMap.set (AMap.set [] b!"Request.Host" r.host) b!"Request.Method" r.method) h) k = some v →
      ⟨k, some v⟩ ∈ as := fun k v hg => h2 (k, v) (.inl (AMap.mem_of_get hg))
  refine ⟨h1, tag _ _ ?_, tag _ _ ?_, ?_, fun k v hm => h2 (k, v) (.inr hm)⟩
  · rw [headerTags_other (by intro s e; cases e)]; rfl
  · rw [headerTags_other (by intro s e; cases e)]; rfl
  · exact fun k v hm => tag _ _ (headerTags_get h _ hn hm)

/-! ## The trace -/

/-- **C154** (the trace).  A visit to the first page is shown as a trace, while no eviction is decided more than 20 seconds after the first
span of the visit was collected: its span, named `/`, and below it just the spans of the requests to the endpoint that arrived with the
context, named `/endpoint`; and what is shown of each is a record of it (see `home_shown` and `endpoint_shown`). -/
theorem visit_shown {env : OTEnv} {verbose : Bool} {s : OTState} (hr : OTReach env verbose s) (hret : ∀ t ∈ s.threads, t.2 = [])
    (hok : ∀ c ∈ s.calls, c.answer = none) {extract : Header → Option OTContext} {trace span : ID} {start : GoTime} {duration : Int}
    {r : Request} {h : Header} {user : Bytes} {calls : List OTOutcome} {home : RawSpan} {kids : List RawSpan}
    (hhome : home = otHomeSpan trace span start duration r h user calls) (hpath : r.urlPath = b!"/")
    (hkids : ∀ k ∈ kids, EndpointOf extract home k)
    (hspans : ((finishedSpans s).filter fun sp => sp.trace = trace).Perm (home :: kids))
    (hd : ((home :: kids).map RawSpan.span).Nodup) (hz : ∀ k ∈ home :: kids, k.span ≠ 0)
    {g : List RecentObs} {rs : RecentStore} (rr : RecentRuns webappAge RecentStore.new g rs) (hy : Young (20 * 1000000000) trace g)
    (hL : forTrace trace (g.filterMap passedOn) = forTrace trace (collectedBy s)) :
    ∃ tr cs, rs.under.view trace = .found tr ∧ tr.span.id = ⟨trace, span, 0⟩ ∧ annotationsName tr.span.annotations = b!"/" ∧
      ShowsSpan env home tr.span.annotations ∧ cs.Perm tr.sub ∧
      List.Forall₂ (fun k c => c.span.id = spanIDOf k ∧ Leaf b!"/endpoint" c ∧ ShowsSpan env k c.span.annotations) kids cs := by
  obtain ⟨f1, f2, f3, f4, f5, -⟩ := foldl_fields calls
    { sampled := defaultShouldSample trace, trace := trace, span := span, parent := 0, operation := r.urlPath, start := start
      duration := duration, logs := []
      tags := addHeaderTags (AMap.set (AMap.set [] b!"Request.Host" r.host) b!"Request.Address" r.remoteAddr) h
      baggage := AMap.set [] b!"User" user }
  rw [← otHomeSpan, ← hhome] at f1 f2 f3 f4 f5
  dsimp only at f1 f2 f3 f4 f5
  have hid : spanIDOf home = ⟨trace, span, 0⟩ := by rw [spanIDOf, f1, f2, f3]
  have hT : TracedAs (finishedSpans s) (visitTree home kids) := by
    have ht : (visitTree home kids).span.id.trace = trace := f1
    refine ⟨⟨⟨trace, span, hid⟩, ?_, ?_, ?_⟩, ?_, ?_⟩
    · intro e he
      have hedges : ∀ e ∈ (visitTree home kids).edges, ∃ k ∈ kids, e = (⟨spanIDOf home, []⟩, ⟨spanIDOf k, []⟩) := by
        intro e he
        rw [visitTree, Tree.edges, visitEdges, List.append_nil, List.map_map] at he
        obtain ⟨k, hk, rfl⟩ := List.mem_map.1 he
        exact ⟨k, hk, rfl⟩
      obtain ⟨k, hk, rfl⟩ := hedges e he
      obtain ⟨k1, k2, -⟩ := endpoint_ids (hkids k hk)
      refine ⟨k.span, ?_⟩
      simp only [newSpanID, spanIDOf, k1, k2]
    · rw [visitTree_spans, List.map_map]
      exact hd
    · intro sp hsp
      rw [visitTree_spans] at hsp
      obtain ⟨k, hk, rfl⟩ := List.mem_map.1 hsp
      exact hz k hk
    · rw [ht, visitTree_spans, List.map_map]
      exact hspans.map _
    · rw [ht]
      intro sp hsp hsp'
      have : sp ∈ home :: kids := hspans.subset (List.mem_filter.2 ⟨hsp, by simpa using hsp'⟩)
      rcases List.mem_cons.1 this with rfl | hk
      · exact f5
      · rw [(endpoint_ids (hkids sp hk)).2.2.1]; exact f5
  have hl := live_undeleted g (rr.young_undeleted hy) []
  rw [List.nil_append] at hl
  have ht : (visitTree home kids).span.id.trace = trace := f1
  obtain ⟨tr, h1, h2, h3⟩ := opentracing_program_shown hr hret hok hT rr.tracks.run (by rw [ht, hl]; exact hL)
  rw [ht] at h1 h3
  rw [visitTree_bare] at h2
  obtain ⟨sp, ts⟩ := tr
  have hnd : ((Tree.node sp ts).spans.map fun s => s.id.span).Nodup := by
    rcases trace_finite_tree rr.tracks.run trace with ⟨-, q⟩ | ⟨-, tr', q, q', -⟩
    · rw [h1] at q; cases q
    · rw [h1] at q; cases q; exact q'
  have same : ∀ u ∈ (Tree.node sp ts).spans, ∀ v ∈ (Tree.node sp ts).spans, u.id = v.id → u = v :=
    fun u hu v hv e => List.inj_on_of_nodup_map hnd hu hv (by rw [e])
  have shows : ∀ k ∈ home :: kids, ∀ u ∈ (Tree.node sp ts).spans, u.id = spanIDOf k → ShowsSpan env k u.annotations := by
    intro k hk u hu e
    have := List.mem_filter.1 (hspans.symm.subset hk)
    obtain ⟨v, hv, e', hs⟩ := h3 k this.1 (by simpa using this.2)
    rwa [same u hu v hv (e.trans e'.symm)]
  rw [reannotate, visitTree] at h2
  cases h2 with
  | node e1 _ hforest =>
  replace e1 : sp.id = spanIDOf home := e1
  obtain ⟨cs', hp, hm⟩ := forestEquiv_matching hforest
  obtain ⟨cs, hcs, rfl⟩ := perm_of_map _ hp ts (reannotateList_map _ _)
  have hroot := shows home (by simp) sp (by rw [Tree.spans]; exact List.mem_cons_self ..) e1
  refine ⟨.node sp ts, cs, h1, e1.trans hid, ?_, hroot, hcs, ?_⟩
  · exact ((shown_span hroot).1.trans f4).trans hpath
  · have key : ∀ (ks : List RawSpan) (cs' : List Tree), (∀ k ∈ ks, k ∈ kids) → (∀ c ∈ cs', c ∈ cs) →
        List.Forall₂ TreeEquiv (cs'.map (reannotate fun _ => [])) (ks.map fun k => .node ⟨spanIDOf k, []⟩ []) →
        List.Forall₂ (fun k c => c.span.id = spanIDOf k ∧ Leaf b!"/endpoint" c ∧ ShowsSpan env k c.span.annotations) ks cs' := by
      intro ks
      induction ks with
      | nil =>
        intro cs' _ _ hm
        cases cs' with
        | nil => exact .nil
        | cons c cs' => cases hm
      | cons k ks ih =>
        intro cs' hk hc hm
        cases cs' with
        | nil => cases hm
        | cons c cs' =>
          rw [List.map_cons, List.map_cons] at hm
          cases hm with
          | cons q hm =>
            refine .cons ?_ (ih cs' (fun k' hk' => hk k' (by simp [hk'])) (fun c' hc' => hc c' (by simp [hc'])) hm)
            have hcmem : c.span ∈ (Tree.node sp ts).spans := by
              rw [Tree.spans]
              refine List.mem_cons_of_mem _ (mem_treesSpans (hcs.subset (hc c (by simp))) ?_)
              cases c
              simp [Tree.spans, Tree.span]
            obtain ⟨csp, cts⟩ := c
            rw [reannotate] at q
            cases q with
            | node e _ hf =>
              replace e : csp.id = spanIDOf k := e
              have hs := shows k (by simp [hk k (by simp)]) csp hcmem e
              refine ⟨e, ⟨((shown_span hs).1.trans (endpoint_ids (hkids k (hk k (by simp)))).2.2.2), ?_⟩, hs⟩
              rw [reannotateList_map] at hf
              show cts = []
              cases cts with
              | nil => rfl
              | cons t ts' =>
                generalize hg : ([] : List Tree) = us at hf
                rw [List.map_cons] at hf
                cases hf with
                | cons _ _ => exact absurd hg (by simp)
    exact key kids cs (fun _ h => h) (fun _ h => h) hm

/-! ## The errors of the calls -/

/-- **C154**, as stated for errors: every error of a call of the endpoint is among the events that are shown of the visit. -/
def ErrorsShown : Prop :=
  ∀ (reg : Registry) (env : OTEnv) (trace span : ID) (start : GoTime) (duration : Int) (r : Request) (h : Header) (user : Bytes)
    (calls : List OTOutcome) (as : List Annotation), registerAll libraryEvents [] = some reg → calls.length = 3 →
    ShowsSpan env (otHomeSpan trace span start duration r h user calls) as →
    TimesHold env (otHomeSpan trace span start duration r h user calls) →
    ∃ out, unmarshalEvents reg as = some (out, none) ∧ ∀ t e, (t, e) ∈ failures calls → (b!"log", logValue e t) ∈ out

theorem home_logs (trace span : ID) (start : GoTime) (duration : Int) (r : Request) (h : Header) (user : Bytes) (calls : List OTOutcome) :
    (otHomeSpan trace span start duration r h user calls).logs = (failures calls).map fun e => ⟨e.1, [[(b!"event", e.2)]]⟩ :=
  (foldl_fields calls _).2.2.2.2.2.2.1.trans (List.nil_append _)

theorem event_text {json : AMap Bytes Bytes → Bytes} {e text : Bytes} (h : LogText json [[(b!"event", e)]].flatten text) : text = e := by
  rcases h with ⟨-, -, h⟩ | ⟨h, -⟩
  · exact (Option.some.inj h).symm
  · exact absurd ⟨by simp, by simp⟩ h

/-- **C154** (what holds of the events).  The events that are shown of the visit are its name, as many log events as calls failed, all of
them with the last error and its time, and its times. -/
theorem home_events_partial {reg : Registry} (hreg : registerAll libraryEvents [] = some reg) {env : OTEnv} {trace span : ID} {start : GoTime}
    {duration : Int} {r : Request} {h : Header} {user : Bytes} {calls : List OTOutcome} {as : List Annotation}
    (hs : ShowsSpan env (otHomeSpan trace span start duration r h user calls) as)
    (ht : TimesHold env (otHomeSpan trace span start duration r h user calls)) :
    ∃ w, unmarshalEvents reg as = some ((b!"name", nameValue r.urlPath) :: List.replicate (failures calls).length (b!"log", w) ++
        [(b!"Timespan", timespanValue start (env.add start duration))], none) ∧ ∀ t e, (failures calls).getLast? = some (t, e) → w = logValue e t := by
  obtain ⟨w, h1, h2⟩ := events_shown_partial hreg hs (home_plain trace span start duration r h user calls) ht
  rw [home_operation, home_logs, List.length_map, (home_times ..).1, (home_times ..).2] at h1
  refine ⟨w, h1, ?_⟩
  intro t e hl
  obtain ⟨ls, hls⟩ := List.getLast?_eq_some_iff.1 hl
  obtain ⟨text, h3, h4⟩ := h2 (ls.map fun e => ⟨e.1, [[(b!"event", e.2)]]⟩) ⟨t, [[(b!"event", e)]]⟩ (by rw [home_logs, hls, List.map_append]; rfl)
  rw [h4, event_text h3]

/-- **C154** (what holds of errors).  If at most one call fails, its error is shown. -/
theorem one_error_shown_partial {reg : Registry} (hreg : registerAll libraryEvents [] = some reg) {env : OTEnv} {trace span : ID} {start : GoTime}
    {duration : Int} {r : Request} {h : Header} {user : Bytes} {calls : List OTOutcome} {as : List Annotation}
    (hs : ShowsSpan env (otHomeSpan trace span start duration r h user calls) as)
    (ht : TimesHold env (otHomeSpan trace span start duration r h user calls)) (h1 : (failures calls).length ≤ 1) :
    ∃ out, unmarshalEvents reg as = some (out, none) ∧ ∀ t e, (t, e) ∈ failures calls → (b!"log", logValue e t) ∈ out := by
  obtain ⟨w, h2, h3⟩ := home_events_partial hreg hs ht
  refine ⟨_, h2, ?_⟩
  intro t e hm
  match hf : failures calls, h1 with
  | [], _ => rw [hf] at hm; cases hm
  | [x], _ =>
    rw [hf] at hm h3
    cases List.mem_singleton.1 hm
    rw [h3 t e rfl]
    simp

/-! ## A visit -/

/-- The request of a visit. -/
def visitRequest : Request := { demoIncoming b!"/" with host := b!"localhost:8699", remoteAddr := b!"[::1]:5000" }

/-- The header of a visit. -/
def visitHeader : Header := [(b!"Accept", [b!"text/html", b!"*/*"])]

/-- The outcomes of the calls: two of them fail, with different errors. -/
def visitOutcomes : List OTOutcome :=
  [.failed ⟨2016, 1, 2, 3, 4, 5, 3, 0⟩ b!"EOF", .answered b!"200 OK", .failed ⟨2016, 1, 2, 3, 4, 5, 4, 0⟩ b!"connection refused"]

/-- The span of a visit. -/
def visitHome : RawSpan := otHomeSpan 1 5 ⟨2016, 1, 2, 3, 4, 5, 0, 0⟩ 9 visitRequest visitHeader b!"ada" visitOutcomes

/-- What `Extract` finds in the header: here the context is a decimal digit for the span. -/
def visitExtract (h : Header) : Option OTContext :=
  if AMap.get h b!"Ot-Span" = some [b!"5"] then some ⟨1, 5, true, [(b!"user", b!"ada")]⟩ else none

/-- The span of the call that arrived. -/
def visitKid : RawSpan :=
  { sampled := true, trace := 1, span := 6, parent := 5, operation := b!"/endpoint", start := ⟨2016, 1, 2, 3, 4, 5, 2, 0⟩, duration := 5, logs := []
    tags := [(b!"Request.Host", b!"localhost:8699"), (b!"Request.Method", b!"GET"), (b!"Request.Header.Ot-Span", b!"5")]
    baggage := [(b!"user", b!"ada")] }

theorem visitKid_endpoint : EndpointOf visitExtract visitHome visitKid :=
  ⟨6, ⟨2016, 1, 2, 3, 4, 5, 2, 0⟩, 5, { demoIncoming b!"/endpoint" with host := b!"localhost:8699", method := b!"GET" }, [(b!"Ot-Span", [b!"5"])],
    rfl, ⟨⟨1, 5, true, [(b!"user", b!"ada")]⟩, rfl, rfl, rfl, rfl⟩, rfl⟩

def homeCalls : List (List Annotation) :=
  [[⟨b!"Name", some b!"/"⟩, ⟨b!"_schema:name", none⟩],
   [⟨b!"Msg", some b!"EOF"⟩, ⟨b!"Time", some b!"2016-01-02T03:04:05.000000003Z"⟩, ⟨b!"_schema:log", none⟩],
   [⟨b!"Msg", some b!"connection refused"⟩, ⟨b!"Time", some b!"2016-01-02T03:04:05.000000004Z"⟩, ⟨b!"_schema:log", none⟩],
   [⟨b!"Request.Host", some b!"localhost:8699"⟩], [⟨b!"Request.Address", some b!"[::1]:5000"⟩],
   [⟨b!"Request.Header.Accept", some b!"text/html, */*"⟩], [⟨b!"Response.Status", some b!"200 OK"⟩], [⟨b!"User", some b!"ada"⟩],
   [⟨b!"Span.Start", some b!"2016-01-02T03:04:05Z"⟩, ⟨b!"Span.End", some b!"2016-01-02T03:04:05.000000009Z"⟩,
    ⟨b!"_schema:Timespan", none⟩]]

def kidCalls : List (List Annotation) :=
  [[⟨b!"Name", some b!"/endpoint"⟩, ⟨b!"_schema:name", none⟩], [⟨b!"Request.Host", some b!"localhost:8699"⟩], [⟨b!"Request.Method", some b!"GET"⟩],
   [⟨b!"Request.Header.Ot-Span", some b!"5"⟩], [⟨b!"user", some b!"ada"⟩],
   [⟨b!"Span.Start", some b!"2016-01-02T03:04:05.000000002Z"⟩, ⟨b!"Span.End", some b!"2016-01-02T03:04:05.000000007Z"⟩,
    ⟨b!"_schema:Timespan", none⟩]]

theorem home_recorded : RecordSpan sampleOTEnv visitHome (homeCalls.map OTAct.collect) :=
  ⟨_, [_, _], _, _, _, ⟨_, ⟨_, .refl _, rfl⟩, rfl⟩, .cons ⟨_, ⟨_, .refl _, rfl⟩, rfl⟩ (.cons ⟨_, ⟨_, .refl _, rfl⟩, rfl⟩ .nil),
    .refl _, .refl _, ⟨_, ⟨_, .refl _, rfl⟩, rfl⟩, rfl⟩

theorem kid_recorded : RecordSpan sampleOTEnv visitKid (kidCalls.map OTAct.collect) :=
  ⟨_, [], _, _, _, ⟨_, ⟨_, .refl _, rfl⟩, rfl⟩, .nil, .refl _, .refl _, ⟨_, ⟨_, .refl _, rfl⟩, rfl⟩, rfl⟩

/-- The endpoint's span is recorded first, while the other is not finished. -/
def afterVisit : OTState := ⟨false, false, [(visitKid, []), (visitHome, [])],
  kidCalls.map (fun as => ⟨0, ⟨1, 6, 5⟩, as, none, none⟩) ++ homeCalls.map (fun as => ⟨1, ⟨1, 5, 0⟩, as, none, none⟩), []⟩

theorem afterVisit_reached : OTReach sampleOTEnv false afterVisit :=
  .step (.step (.step (.step (.step (.step (.step (.step (.step (.step (.step (.step (.step (.step (.step (.step (.step .new
    (.start _ _ _ kid_recorded)) (.collect _ 0 _ _ _ none rfl)) (.collect _ 0 _ _ _ none rfl)) (.collect _ 0 _ _ _ none rfl))
    (.collect _ 0 _ _ _ none rfl)) (.collect _ 0 _ _ _ none rfl)) (.collect _ 0 _ _ _ none rfl))
    (.start _ _ _ home_recorded)) (.collect _ 1 _ _ _ none rfl)) (.collect _ 1 _ _ _ none rfl)) (.collect _ 1 _ _ _ none rfl))
    (.collect _ 1 _ _ _ none rfl)) (.collect _ 1 _ _ _ none rfl)) (.collect _ 1 _ _ _ none rfl)) (.collect _ 1 _ _ _ none rfl))
    (.collect _ 1 _ _ _ none rfl)) (.collect _ 1 _ _ _ none rfl)

/-- The visit meets all hypotheses of `visit_shown`. -/
example : ∃ g rs, OTReach sampleOTEnv false afterVisit ∧ (∀ t ∈ afterVisit.threads, t.2 = []) ∧ (∀ c ∈ afterVisit.calls, c.answer = none) ∧
    visitRequest.urlPath = b!"/" ∧ EndpointOf visitExtract visitHome visitKid ∧
    ((finishedSpans afterVisit).filter fun sp => sp.trace = 1).Perm [visitHome, visitKid] ∧
    ([visitHome, visitKid].map RawSpan.span).Nodup ∧ (∀ k ∈ [visitHome, visitKid], k.span ≠ 0) ∧
    RecentRuns webappAge RecentStore.new g rs ∧ Young (20 * 1000000000) 1 g ∧
    forTrace 1 (g.filterMap passedOn) = forTrace 1 (collectedBy afterVisit) := by
  obtain ⟨rs, r, -, -⟩ := recent_at_once (age := webappAge) (by decide) (by decide) (collectedBy afterVisit)
  have hpassed : ∀ L : List Entry, (L.flatMap fun e => [RecentObs.call ⟨0, 0, 0, 0⟩ e.1 e.2 [], .stored e.1 e.2]).filterMap passedOn = L := by
    intro L
    induction L with
    | nil => rfl
    | cons e L ih => simp only [List.flatMap_cons, List.cons_append, List.nil_append, List.filterMap_cons, passedOn, ih]
  refine ⟨_, rs, afterVisit_reached, by simp [afterVisit], ?_, rfl, visitKid_endpoint, .swap _ _ _, by decide, ?_, r, ?_, by rw [hpassed]⟩
  · intro c hc
    simp only [afterVisit, List.mem_append, List.mem_map] at hc
    rcases hc with ⟨_, _, rfl⟩ | ⟨_, _, rfl⟩ <;> rfl
  · intro k hk
    simp only [List.mem_cons, List.not_mem_nil, or_false] at hk
    rcases hk with rfl | rfl <;> decide
  · intro h1 c id as ev h2 e hid hn c' id' as' ev' hm hev
    have := List.mem_append_right h1 hm
    rw [← e] at this
    obtain ⟨d, -, hd⟩ := List.mem_flatMap.1 this
    simp only [List.mem_cons, List.not_mem_nil, or_false, reduceCtorEq] at hd
    cases hd
    exact absurd rfl hev

theorem visitHome_shown : ShowsSpan sampleOTEnv visitHome homeCalls.flatten := by
  refine ⟨homeCalls, ⟨_, _, [_, _], [_, _, _, _], [_], rfl, rfl, ?_, .refl _, .refl _, _, .refl _, rfl⟩, rfl⟩
  refine .cons ⟨b!"EOF", .inl ⟨by decide, by decide, by decide⟩, _, .refl _, rfl⟩
    (.cons ⟨b!"connection refused", .inl ⟨by decide, by decide, by decide⟩, _, .refl _, rfl⟩ .nil)

theorem visitHome_times : TimesHold sampleOTEnv visitHome := by
  refine ⟨by decide, by decide, ?_⟩
  intro l hl
  rw [visitHome, home_logs] at hl
  obtain ⟨x, hx, rfl⟩ := List.mem_map.1 hl
  simp only [visitOutcomes, failures, List.mem_cons, List.not_mem_nil, or_false] at hx
  rcases hx with rfl | rfl <;> decide

/-- The hypotheses of `home_shown` are met, and those of `one_error_shown_partial` if the third call is answered. -/
example : ShowsSpan sampleOTEnv visitHome homeCalls.flatten ∧ visitHeader.keys.Nodup ∧ lastStatus visitOutcomes = some b!"200 OK" ∧
    (failures (visitOutcomes.take 2 ++ [.answered b!"200 OK"])).length ≤ 1 := ⟨visitHome_shown, by decide, rfl, by decide⟩

/-- **C154** (errors) is false of the code: of the two errors of this visit only the second is shown, twice. -/
theorem errors_not_shown : ¬ ErrorsShown := by
  intro H
  obtain ⟨reg, hreg, -⟩ := library_registers
  obtain ⟨out, h1, h2⟩ := H reg sampleOTEnv 1 5 _ 9 visitRequest visitHeader b!"ada" visitOutcomes _ hreg rfl visitHome_shown visitHome_times
  obtain ⟨w, h3, h4⟩ := home_events_partial hreg visitHome_shown visitHome_times
  rw [h4 _ _ rfl, h1] at h3
  cases h3
  have := h2 ⟨2016, 1, 2, 3, 4, 5, 3, 0⟩ b!"EOF" (by simp [visitOutcomes, failures])
  simp [visitOutcomes, failures, logValue, nameValue, timespanValue, List.replicate_succ] at this

/-! ## The link -/

/-- **C154** (the link).  The first page has a link to the list of traces of the web application, and the traces there are those of the store. -/
theorem home_link (ms : MemStore) {ops : List StoreOp} (h : MemStore.new.run ops = some ms) {ptrs : List Addr} (hp : ptrs.Perm (ms.tracesPtr {})) :
    ∃ before link after trs, otHomePage.flatten = before ++ b!"<a href=\"" ++ (b!"http://localhost:8700" ++ link) ++ b!"\"" ++ after ∧
      dispatch .get link = .to .traces [] ∧ ms.tracesView ptrs = some trs ∧ ∀ t tr, ms.view t = .found tr → tr ∈ trs := by
  obtain ⟨trs, h1, h2, -⟩ := traces_lists_all h {} ptrs hp
  exact ⟨b!"<p>Three API requests have been made!</p><p>", b!"/traces", b!" target=\"_\">View the trace</a></p>", trs, by decide, by decide, h1,
    fun t tr ht => (h2 tr).2 ⟨t, ht⟩⟩

end Appdash.ExampleOT
