import Verif.Proofs.ExampleWebapp

/-!
# Property C153: the example `webapp`
-/

namespace Appdash

open Spec

/-- **C153** (the trace).  A visit to the first page of the example is shown as a trace, while no eviction is decided more than 20 seconds
after the first span of the visit was collected: the request, and below it the three calls and the requests to the endpoint that arrived. -/
theorem webapp_trace_shown {reg : Registry} (hreg : registerAll libraryEvents [] = some reg) {h : List RecentObs} {rs : RecentStore}
    (r : RecentRuns webappAge RecentStore.new h rs) {root : Handled} (hok : root.Ok) (hw : WebappHandled root)
    (hpath : root.req.request.urlPath = b!"/")
    (hfirst : root.req.header.Lacks b!"Span-Id" ∧ root.req.header.Lacks b!"Parent-Span-Id")
    (hd : (root.tree.spans.map fun sp => sp.id.span).Nodup) (hz : ∀ sp ∈ root.tree.spans, sp.id.span ≠ 0)
    (hL : (forTrace root.req.id.trace (h.filterMap called)).Perm root.deliveries) (hy : Young (20 * 1000000000) root.req.id.trace h)
    (hn : ∀ e ∈ rs.pending, e.1.trace ≠ root.req.id.trace) :
    ∃ tr cs n, rs.under.view root.req.id.trace = .found tr ∧ tr.span.id = root.req.id ∧ annotationsName tr.span.annotations = b!"Serve /" ∧
      cs.Perm tr.sub ∧ n = (match root with | .mk _ _ _ children => children.length) ∧
      List.Forall₂ Leaf (List.replicate 3 b!"Request localhost:8699" ++ List.replicate n b!"Serve /endpoint") cs := by
  have hl := live_undeleted h (r.young_undeleted hy) []
  rw [List.nil_append] at hl
  obtain ⟨f, tr, hf, h1, h2, h3⟩ := services_delivered hreg r.tracks.run hok hfirst hd hz (by rw [hl]; exact (r.arrived hn).trans hL)
  have hroot := webapp_request_named hw hok (f := f)
    (fun s hs rec hr d hdel => hf d (requests_delivered root s hs rec hr d hdel)) (by rw [hpath]; decide)
  rw [hpath] at hroot
  have hin : ∀ s ∈ root.requests, ∀ rec, s.out.recorder = some rec → ∀ d ∈ rec.calls, d.2 = f d.1 :=
    fun s hs rec hr d hdel => hf d (requests_delivered root s hs rec hr d hdel)
  have hcl : ∀ c ∈ root.clientCalls, ∀ d ∈ c.out.recorder.calls, d.2 = f d.1 :=
    fun c hc d hdel => hf d (clientCalls_delivered root c hc d hdel)
  cases hw with
  | mk s calls children next route made arrived handled =>
  cases hok with
  | mk _ _ _ _ hs hcalls _ hchildren _ =>
  have hgets : DemoStep.gets (webappSteps s.id s.request.urlPath) = List.replicate 3 (webappBase.resolve b!"/endpoint") := by
    rw [show s.request.urlPath = b!"/" from hpath]; rfl
  rw [hgets] at made
  have hlen : calls.length = 3 := by simpa using made.length_eq
  have hmade : ∀ c ∈ calls, DemoCall c (webappBase.resolve b!"/endpoint") := by
    intro c hc
    obtain ⟨i, hi, rfl⟩ := List.getElem_of_mem hc
    have := made.get hi (by simpa [hlen] using hi)
    simp only [List.get_eq_getElem, List.getElem_replicate] at this
    exact this
  have hcall : ∀ c ∈ calls, annotationsName (f c.out.recorder.span) = b!"Request localhost:8699" := by
    intro c hc
    obtain ⟨as, e1, e2⟩ := call_named (hcalls c hc) (hmade c hc).named
    have := hcl c (by simp only [Handled.clientCalls]; exact List.mem_append_left _ hc) (c.out.recorder.span, as)
      (by rw [e1]; exact List.mem_singleton.2 rfl)
    rw [← this, e2, (hmade c hc).request]
    rfl
  have hkp : ∀ k ∈ children, k.req.request.urlPath = b!"/endpoint" := by
    intro k hk
    obtain ⟨c, hc, -, e⟩ := arrived k hk
    rw [e, (hmade c hc).request]
    rfl
  have hchild : ∀ k ∈ children, annotationsName (f k.req.id) = b!"Serve /endpoint" := by
    intro k hk
    have := webapp_request_named (handled k hk) (hchildren k hk) (f := f)
      (fun s' hs' => hin s' (by rw [Handled.requests]; exact List.mem_cons_of_mem _ (mem_requestsOf hs' _ hk)))
      (by rw [hkp k hk]; decide)
    rw [this, hkp k hk]
    rfl
  have htree : reannotate f (Handled.mk s calls [] children).tree = .node ⟨s.id, f s.id⟩
      (((calls.map fun c => c.out.recorder.span) ++ (children.map fun k => k.req.id)).map fun i => .node ⟨i, f i⟩ []) := by
    have hk : (children.map Handled.tree) = children.map fun k => .node ⟨k.req.id, []⟩ [] :=
      List.map_congr_left fun k hk => webapp_endpoint (handled k hk) (hkp k hk)
    have hre : ∀ is : List SpanID, reannotateList f (is.map fun i => .node ⟨i, []⟩ []) = is.map fun i => .node ⟨i, f i⟩ [] := by
      intro is
      induction is with
      | nil => rfl
      | cons i is ih => simp [reannotateList, reannotate, ih]
    rw [Handled.tree, trees_eq_map, hk, reannotate, ← hre]
    simp only [List.map_append, List.map_map, List.map_nil, List.append_nil]
    rfl
  rw [htree] at h2
  obtain ⟨sp, ts⟩ := tr
  cases h2 with
  | node e1 _ hforest =>
  obtain ⟨cs, hcs, hm⟩ := forestEquiv_matching hforest
  have leaf : ∀ (c : Tree) (i : SpanID), c ∈ cs → TreeEquiv c (.node ⟨i, f i⟩ []) → Leaf (annotationsName (f i)) c := by
    intro c i hc he
    have hmem : c.span ∈ (Tree.node sp ts).spans := by
      rw [Tree.spans]
      refine List.mem_cons_of_mem _ (mem_treesSpans (hcs.subset hc) ?_)
      cases c
      simp [Tree.spans, Tree.span]
    have ha := h3 _ hmem
    cases he with
    | node e _ hf' =>
      generalize hg : ([] : List Tree) = us at hf'
      cases hf' with
      | cons _ _ => exact absurd hg (by simp)
      | nil => exact ⟨congrArg annotationsName (ha.trans (congrArg f e)), rfl⟩
  refine ⟨.node sp ts, cs, children.length, h1, e1, ?_, hcs, rfl, ?_⟩
  · have : sp.annotations = f sp.id := h3 sp (by rw [Tree.spans]; exact List.mem_cons_self ..)
    show annotationsName sp.annotations = _
    rw [this, show sp.id = s.id from e1]
    exact hroot
  · have key : ∀ (is : List SpanID) (cs' : List Tree), (∀ c ∈ cs', c ∈ cs) →
        List.Forall₂ TreeEquiv cs' (is.map fun i => .node ⟨i, f i⟩ []) →
        List.Forall₂ Leaf (is.map fun i => annotationsName (f i)) cs' := by
      intro is
      induction is with
      | nil => intro cs' _ hm; cases hm; exact .nil
      | cons i is ih =>
        intro cs' hc hm
        cases hm with
        | cons q hm => exact .cons (leaf _ _ (hc _ (by simp)) q) (ih _ (fun c hc' => hc c (by simp [hc'])) hm)
    have := key _ cs (fun _ h => h) hm
    rw [List.map_append, List.map_map, List.map_map] at this
    have e1 : (calls.map ((fun i => annotationsName (f i)) ∘ fun c => c.out.recorder.span)) = List.replicate 3 b!"Request localhost:8699" := by
      rw [List.eq_replicate_iff]
      refine ⟨by simpa using hlen, ?_⟩
      intro b hb
      obtain ⟨c, hc, rfl⟩ := List.mem_map.1 hb
      exact hcall c hc
    have e2 : (children.map ((fun i => annotationsName (f i)) ∘ fun k => k.req.id)) = List.replicate children.length b!"Serve /endpoint" := by
      rw [List.eq_replicate_iff]
      refine ⟨by simp, ?_⟩
      intro b hb
      obtain ⟨c, hc, rfl⟩ := List.mem_map.1 hb
      exact hchild c hc
    rwa [e1, e2] at this

/-- **C153** (the link).  The first page of the example has a link that leads to the server of the web application, and there to the page of
the trace of the visit. -/
theorem webapp_link_leads (r : Request) (h : Header) (span : SpanID) (hpath : r.urlPath = b!"/") :
    ∃ run before link after, webappNext r h span = some run ∧ written run.ops = before ++ b!"<a href=\"" ++ link ++ b!"\"" ++ after ∧
      link = b!"http://localhost:8700" ++ requestPath link ∧ requestPath link = urlToTrace span.trace ∧
      dispatch .get (requestPath link) = .to .trace [(b!"Trace", span.trace.toText)] ∧ LeadsTo webappTraces false [] b!"8700" := by
  have hp : requestPath (webappTraces.resolve (b!"/traces/" ++ span.trace.toText)).text = urlToTrace span.trace := by
    have := requestPath_text (u := webappTraces.resolve (b!"/traces/" ++ span.trace.toText)) (show 58 ∉ b!"http" by decide) (show 47 ∉ b!"localhost:8700" by decide) rfl []
    rw [List.append_nil, List.append_nil] at this
    rw [this, urlToTrace_eq]
    simp [BaseURL.resolve, webappTraces]
  have hlink : (webappTraces.resolve (b!"/traces/" ++ span.trace.toText)).text = b!"http://localhost:8700" ++ (b!"/traces/" ++ span.trace.toText) := by
    simp [BaseURL.text, BaseURL.resolve, webappTraces]
  refine ⟨⟨DemoStep.ops (webappSteps span b!"/"), [], r, h⟩, b!"<p>Three API requests have been made!</p><p>",
    (webappTraces.resolve (b!"/traces/" ++ span.trace.toText)).text,
    b!" target=\"_\">View the trace (ID:" ++ span.trace.toText ++ b!")</a></p>", ?_, ?_, ?_, hp, by rw [hp]; exact dispatch_trace _, ?_⟩
  · rw [webappNext, if_pos (.inl hpath), hpath]
  · rw [hlink]
    simp [webappSteps, webappPage, DemoStep.ops, written]
  · rw [hp, urlToTrace_eq, hlink]
    simp
  · exact ⟨rfl, by decide⟩

/-- **C153** (following the link).  The browser that follows the link gets the page of this trace, unless the events of a span cannot be
read. -/
theorem webapp_visit_page {reg : Registry} (hreg : registerAll libraryEvents [] = some reg) {h : List RecentObs} {rs : RecentStore}
    (r : RecentRuns webappAge RecentStore.new h rs) {root : Handled} (hok : root.Ok) (hw : WebappHandled root)
    (hpath : root.req.request.urlPath = b!"/")
    (hfirst : root.req.header.Lacks b!"Span-Id" ∧ root.req.header.Lacks b!"Parent-Span-Id")
    (hd : (root.tree.spans.map fun sp => sp.id.span).Nodup) (hz : ∀ sp ∈ root.tree.spans, sp.id.span ≠ 0)
    (hL : (forTrace root.req.id.trace (h.filterMap called)).Perm root.deliveries) (hy : Young (20 * 1000000000) root.req.id.trace h)
    (hn : ∀ e ∈ rs.pending, e.1.trace ≠ root.req.id.trace) {τ : Type} {env : WebEnv τ} {files : TemplateFiles} (hg : GoodFiles env files)
    {st : WebState τ} (hst : st.store = rs.under) (ht : st.tmpls = none ∨ env.reload = true) {hdr : Header} :
    ∃ before link after tr tmpl,
      written root.req.run.ops = before ++ b!"<a href=\"" ++ (b!"http://localhost:8700" ++ link) ++ b!"\"" ++ after ∧
      tr.span.id = root.req.id ∧ tr.sub.length = 3 + (match root with | .mk _ _ _ children => children.length) ∧
      Compiled env files b!"trace.html" tmpl ∧
      ∀ st' out, AppServes env files st ⟨.get, link, [], hdr, []⟩ [] st' out →
        (∃ pg, AnsweredBy out (pageAnswer env tmpl ⟨.trace, link, [], env.agg.isSome⟩ (.trace pg)) ∧ pg.trace = tr) ∨
          ∃ msg, AnsweredBy out (.failed msg) ∧ ∃ sp ∈ tr.spans, ¬ EventsReadable env.view.reg sp := by
  obtain ⟨tr, cs, n, h1, h2, -, h3, h4, h5⟩ := webapp_trace_shown hreg r hok hw hpath hfirst hd hz hL hy hn
  obtain ⟨tmpl, q1, q2, -⟩ := found_on_page hg ht (hdr := hdr) (by rw [hst]; exact h1)
  obtain ⟨run, before, link, after, p1, p2, p3, hlink, -⟩ := webapp_link_leads root.req.request root.req.header root.req.id hpath
  have hrun : root.req.run = run := by
    cases hw with
    | mk s calls children next route made arrived handled =>
    cases hok with
    | mk _ _ _ _ hs _ _ _ _ =>
      have h := hs.handler
      rw [next] at h
      exact Option.some.inj (h.symm.trans p1)
  refine ⟨before, urlToTrace root.req.id.trace, after, tr, tmpl, by rw [hrun, p2, p3, hlink], h2, ?_, q1, ?_⟩
  · have := h5.length_eq
    simp only [List.length_append, List.length_replicate] at this
    rw [← h3.length_eq, ← this, h4]
  · intro st' out hs
    rcases (q2 st' out hs).2 with ⟨pg, a, b, -⟩ | hno
    · exact .inl ⟨pg, a, b⟩
    · exact .inr hno

/-! ## A visit -/

/-- The server of the example; the middleware takes its IDs from `src`. -/
def webappEnv (src : Nat → ID) : ServerEnv := ⟨⟨[], fun _ _ => false⟩, ⟨fun _ _ => none, fun _ _ _ => []⟩, src, some webappRoute, none,
  webappNext, true, .zero, .zero⟩

/-- A request to the endpoint. -/
def webappEndpoint (header : Header) (out : ServerRun) : Handled :=
  .mk ⟨webappEnv (fun _ => 99), 0, demoIncoming b!"/endpoint", header, out,
    ⟨DemoStep.ops (webappSteps ⟨1, 4, 2⟩ b!"/endpoint"), [], demoIncoming b!"/endpoint", header⟩, ⟨1, 4, 2⟩⟩ [] [] []

theorem webapp_endpoint_ok {header : Header} (hh : header = [(b!"Span-Id", [SpanID.toText ⟨1, 4, 2⟩])]) {out : ServerRun}
    (h : Serves (webappEnv fun _ => 99) 0 (demoIncoming b!"/endpoint") header out) :
    (webappEndpoint header out).Ok ∧ WebappHandled (webappEndpoint header out) := by
  constructor
  · refine .mk _ _ _ _ ⟨h, ?_, rfl, fun _ _ => rfl, ⟨zero_time_holds, zero_time_holds⟩, ⟨show FitsInt64 0 by unfold FitsInt64; decide,
      show FitsInt64 0 by unfold FitsInt64; decide⟩, ?_, ?_⟩ (by simp) (by simp) (by simp) (by simp)
    · show getSpanID (fun _ => 99) 0 header = (some ⟨1, 4, 2⟩, none)
      rw [hh]
      have e : Header.find [(b!"Span-Id", [SpanID.toText ⟨1, 4, 2⟩])] headerSpanID = SpanID.toText ⟨1, 4, 2⟩ := rfl
      have hne : SpanID.toText ⟨1, 4, 2⟩ ≠ [] := by
        intro h0
        have := parseSpanID_toText ⟨1, 4, 2⟩
        rw [h0] at this
        cases this
      simp only [getSpanID, getSpanIDFrom, getSpanIDHeader, e, hne, if_false, parseSpanID_toText]
    · show (b!"Slept for 200ms!").length < 2 ^ 63; decide
    · intro c hc; cases hc
  · exact .mk _ _ _ rfl rfl .nil (by simp) (by simp)

/-- A visit to the first page; of the three calls the first arrives. -/
def webappVisit (sout : ServerRun) (c1 c2 c3 : ClientRun) (k1 : ServerRun) : Handled :=
  .mk ⟨webappEnv (fun i => 1 + i.toUInt64), 0, demoIncoming b!"/", [], sout,
      ⟨DemoStep.ops (webappSteps ⟨1, 2, 0⟩ b!"/"), [], demoIncoming b!"/", []⟩, ⟨1, 2, 0⟩⟩
    [demoCallOf 3 b!"/endpoint" c1, demoCallOf 5 b!"/endpoint" c2, demoCallOf 7 b!"/endpoint" c3] []
    [webappEndpoint c1.sentHeader k1]

/-- A visit meets the hypotheses of `webapp_trace_shown` and `webapp_visit_page`. -/
example : ∃ (root : Handled) (h : List RecentObs) (rs : RecentStore), root.Ok ∧ WebappHandled root ∧
    root.req.request.urlPath = b!"/" ∧ root.req.header.Lacks b!"Span-Id" ∧ root.req.header.Lacks b!"Parent-Span-Id" ∧
    (root.tree.spans.map fun sp => sp.id.span).Nodup ∧ (∀ sp ∈ root.tree.spans, sp.id.span ≠ 0) ∧
    RecentRuns webappAge RecentStore.new h rs ∧ (forTrace root.req.id.trace (h.filterMap called)).Perm root.deliveries ∧
    Young (20 * 1000000000) root.req.id.trace h ∧ (∀ e ∈ rs.pending, e.1.trace ≠ root.req.id.trace) ∧ root.deliveries.length = 5 := by
  obtain ⟨reg, hreg⟩ : ∃ reg, registerAll libraryEvents [] = some reg := ⟨_, rfl⟩
  obtain ⟨sout, hs⟩ := serves_total (webappEnv fun i => 1 + i.toUInt64) 0 (demoIncoming b!"/") []
  obtain ⟨c1, hc1⟩ := round_trips_total (demoClient 3) 0 [[]] (demoGet (demoBase.resolve b!"/endpoint") 0)
  obtain ⟨c2, hc2⟩ := round_trips_total (demoClient 5) 0 [[]] (demoGet (demoBase.resolve b!"/endpoint") 0)
  obtain ⟨c3, hc3⟩ := round_trips_total (demoClient 7) 0 [[]] (demoGet (demoBase.resolve b!"/endpoint") 0)
  obtain ⟨k1, hk1⟩ := serves_total (webappEnv fun _ => 99) 0 (demoIncoming b!"/endpoint") c1.sentHeader
  obtain ⟨o1, d1, e1, s1⟩ := demo_call_ok hc1
  obtain ⟨o2, d2, e2, s2⟩ := demo_call_ok hc2
  obtain ⟨o3, d3, e3, s3⟩ := demo_call_ok hc3
  obtain ⟨p1, q1⟩ := webapp_endpoint_ok s1 hk1
  have hd1 : Delivered c1.sentHeader c1.sentHeader := by rw [s1]; exact delivered_self _ (by decide) (by decide)
  have hok : (webappVisit sout c1 c2 c3 k1).Ok := by
    refine .mk _ _ _ _ ⟨hs, show getSpanID (fun i => 1 + i.toUInt64) 0 [] = (some ⟨1, 2, 0⟩, none) by decide, rfl, fun _ _ => rfl,
      ⟨zero_time_holds, zero_time_holds⟩, ⟨show FitsInt64 0 by unfold FitsInt64; decide, show FitsInt64 0 by unfold FitsInt64; decide⟩, ?_, ?_⟩ ?_ (by simp) ?_ ?_
    · show (written (DemoStep.ops (webappSteps ⟨1, 2, 0⟩ b!"/"))).length < 2 ^ 63
      decide +kernel
    · intro c hc; cases hc
    · intro c hc
      simp only [List.mem_cons, List.not_mem_nil, or_false] at hc
      rcases hc with rfl | rfl | rfl <;> assumption
    · intro c hc
      simp only [List.mem_cons, List.not_mem_nil, or_false] at hc
      rcases hc with rfl
      assumption
    · intro c hc
      simp only [List.mem_cons, List.not_mem_nil, or_false] at hc
      rcases hc with rfl
      exact ⟨_, List.mem_cons_self .., hd1⟩
  have hw : WebappHandled (webappVisit sout c1 c2 c3 k1) := by
    refine .mk _ _ _ rfl rfl (.cons d1 (.cons d2 (.cons d3 .nil))) ?_ ?_
    · intro c hc
      simp only [List.mem_cons, List.not_mem_nil, or_false] at hc
      rcases hc with rfl
      exact ⟨_, List.mem_cons_self .., hd1, rfl⟩
    · intro c hc
      simp only [List.mem_cons, List.not_mem_nil, or_false] at hc
      rcases hc with rfl
      assumption
  have htree : (webappVisit sout c1 c2 c3 k1).tree.spans.map Span.id = [⟨1, 2, 0⟩, ⟨1, 3, 2⟩, ⟨1, 5, 2⟩, ⟨1, 7, 2⟩, ⟨1, 4, 2⟩] := by
    simp only [webappVisit, demoCallOf, webappEndpoint, Handled.tree, Handled.trees, List.map_cons, List.map_nil, List.append_nil, List.cons_append,
      List.nil_append, e1, e2, e3, Tree.spans, Tree.spansList]
  have hspans : (webappVisit sout c1 c2 c3 k1).tree.spans.map (fun sp => sp.id.span) = [2, 3, 5, 7, 4] := by
    have := congrArg (List.map SpanID.span) htree
    rw [List.map_map] at this
    exact this
  have hids := deliveries_ids hreg _ hok
  rw [htree] at hids
  obtain ⟨rs, r, hp, -⟩ := recent_at_once (age := webappAge) (by decide) (by decide) (webappVisit sout c1 c2 c3 k1).deliveries
  have hcalled : ∀ L : List Entry, (L.flatMap fun e => [RecentObs.call ⟨0, 0, 0, 0⟩ e.1 e.2 [], .stored e.1 e.2]).filterMap called = L := by
    intro L
    induction L with
    | nil => rfl
    | cons e L ih => simp only [List.flatMap_cons, List.cons_append, List.nil_append, List.filterMap_cons, called, ih]
  refine ⟨webappVisit sout c1 c2 c3 k1, _, rs, hok, hw, rfl, lacks_empty _, lacks_empty _, by rw [hspans]; decide, ?_, r, ?_, ?_,
    by simp [hp], by simpa using congrArg List.length hids⟩
  · intro sp hsp
    have : sp.id.span ∈ [2, 3, 5, 7, 4] := hspans ▸ List.mem_map_of_mem (f := fun sp => sp.id.span) hsp
    intro h0
    rw [h0] at this
    revert this
    decide
  · rw [hcalled]
    unfold forTrace
    rw [List.filter_eq_self.2]
    intro d hd
    have : d.1 ∈ (webappVisit sout c1 c2 c3 k1).deliveries.map Prod.fst := List.mem_map_of_mem hd
    rw [hids] at this
    simp only [List.mem_cons, List.not_mem_nil, or_false] at this
    rcases this with h | h | h | h | h <;> rw [h] <;> rfl
  · intro h1 c id as ev h2 e hid hn c' id' as' ev' hm hev
    have := List.mem_append_right h1 hm
    rw [← e] at this
    obtain ⟨d, -, hd⟩ := List.mem_flatMap.1 this
    simp only [List.mem_cons, List.not_mem_nil, or_false, reduceCtorEq] at hd
    cases hd
    exact absurd rfl hev

end Appdash
