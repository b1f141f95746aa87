import Verif.Proofs.Demo

/-!
# C144: the demo; C115, continued: the names of spans
-/

namespace Appdash

open Spec

/-- **C115** (names).  In the trace of a distributed program, pages name the span of a request after its route, or else after host and path,
and the span of a call, if the `Transport` is to set names, after the host. -/
theorem services_named {reg : Registry} (hreg : registerAll libraryEvents [] = some reg) {ops : List StoreOp} {ms : MemStore}
    (h : MemStore.new.run ops = some ms) {root : Handled} (hok : root.Ok)
    (hfirst : root.req.header.Lacks b!"Span-Id" ∧ root.req.header.Lacks b!"Parent-Span-Id")
    (hd : (root.tree.spans.map fun sp => sp.id.span).Nodup) (hz : ∀ sp ∈ root.tree.spans, sp.id.span ≠ 0)
    (hL : (live root.req.id.trace ops).Perm root.deliveries) :
    ∃ tr, ms.view root.req.id.trace = .found tr ∧
      (∀ sp ∈ tr.spans, ∀ s ∈ root.requests, s.id = sp.id → annotationsName sp.annotations = b!"Serve " ++
        (match (s.env.routeName.map fun f => f s.run.request s.run.requestHeader).getD [] with
          | [] => s.run.request.urlHost ++ s.run.request.urlPath
          | route => route)) ∧
      ∀ sp ∈ tr.spans, ∀ c ∈ root.clientCalls, c.out.recorder.span = sp.id → c.env.setName = true →
        annotationsName sp.annotations = b!"Request " ++ c.original.urlHost := by
  obtain ⟨f, tr, hf, h1, -, h3⟩ := services_delivered hreg h hok hfirst hd hz hL
  refine ⟨tr, h1, ?_, ?_⟩
  · intro sp hsp s hs hid
    obtain ⟨rec, as, e1, e2, e3⟩ := served_named (requests_ok root hok s hs)
    have := hf (s.id, as) (requests_delivered root s hs rec e1 _ (by rw [e2]; exact List.mem_singleton.2 rfl))
    rw [h3 sp hsp, ← hid, ← this]
    exact e3
  · intro sp hsp c hc hid hn
    obtain ⟨p, hp⟩ := clientCalls_ok root hok c hc
    obtain ⟨as, e1, e2⟩ := call_named hp hn
    have := hf (c.out.recorder.span, as) (clientCalls_delivered root c hc _ (by rw [e1]; exact List.mem_singleton.2 rfl))
    rw [h3 sp hsp, ← hid, ← this, e2]

/-- **C144** (addresses).  The URLs that the demo prints and uses lead to its servers if and only if the addresses have no host. -/
theorem demo_url_leads_iff_partial {parse : Bytes → Option BaseURL} (hp : ParsesPlain parse) {host port : Bytes} (h : PlainOption host port) :
    ∃ u, demoURL parse (host ++ b!":" ++ port) = some u ∧ (LeadsTo u false host port ↔ host = []) := by
  have h' : PlainOption (b!"localhost" ++ host) port := by
    refine ⟨?_, h.2⟩
    intro c hc
    rcases List.mem_append.1 hc with hc | hc
    · have : ∀ c ∈ b!"localhost", (48 ≤ c ∧ c ≤ 57) ∨ (65 ≤ c ∧ c ≤ 90) ∨ (97 ≤ c ∧ c ≤ 122) ∨ c = 45 ∨ c = 46 := by decide
      exact this c hc
    · exact h.1 c hc
  have e := hp _ _ h'
  refine ⟨_, by rw [demoURL, ← e]; simp, ?_⟩
  unfold LeadsTo
  constructor
  · rintro ⟨-, h2⟩
    by_contra hne
    have hc : 58 ∉ host := fun hc => absurd (h.1 58 hc) (by decide)
    simp only [hne, if_false, address, hc] at h2
    have := congrArg List.length h2
    simp at this
    omega
  · rintro rfl
    exact ⟨rfl, by simp [address]⟩

/-- **C144**.  They do not for `-demo-http=127.0.0.1:8699`. -/
theorem demo_urls_mislead : ¬ DemoURLsLead := by
  intro hf
  have hp : ParsesPlain (fun s => some ⟨b!"http", s.drop 7, []⟩) := by
    intro host port _
    simp
  have ha : PlainOption b!"127.0.0.1" b!"8699" := by unfold PlainOption; decide
  obtain ⟨u, h1, h2⟩ := hf _ hp b!"127.0.0.1" b!"8699" ha
  obtain ⟨u', h1', h2'⟩ := demo_url_leads_iff_partial hp ha
  rw [h1] at h1'
  cases h1'
  exact absurd (h2'.1 h2) (by decide)

/-- **C144** (the link).  Every page of the demo except the three endpoints has a link to the page of the web application for the trace of
the request. -/
theorem demo_link_leads {base app : BaseURL} (hs : 58 ∉ app.scheme) (hh : 47 ∉ app.host) (r : Request) (h : Header) (span : SpanID)
    (hpath : r.urlPath ∉ [b!"/endpoint-A", b!"/endpoint-B", b!"/endpoint-C"]) :
    ∃ run before link after, demoNext base app r h span = some run ∧ written run.ops = before ++ b!"<a href=\"" ++ link ++ b!"\">" ++ after ∧
      link = app.scheme ++ b!"://" ++ app.host ++ requestPath link ∧
      dispatch .get (requestPath link) = .to .trace [(b!"Trace", span.trace.toText)] := by
  have hp : requestPath (app.resolve (b!"/traces/" ++ span.trace.toText)).text = urlToTrace span.trace := by
    have := requestPath_text (u := app.resolve (b!"/traces/" ++ span.trace.toText)) hs hh rfl []
    rw [List.append_nil, List.append_nil] at this
    rw [this, urlToTrace_eq]
    simp [BaseURL.resolve]
  have key : ∀ pre : Bytes, ∃ before after, pre ++ demoLink app span =
      before ++ b!"<a href=\"" ++ (app.resolve (b!"/traces/" ++ span.trace.toText)).text ++ b!"\">" ++ after := fun pre =>
    ⟨pre ++ b!"<br><br><hr>", b!"View request trace on appdash</a> (trace ID is " ++ span.trace.toText ++ b!")", by simp [demoLink]⟩
  have hlink : (app.resolve (b!"/traces/" ++ span.trace.toText)).text = app.scheme ++ b!"://" ++ app.host ++
      requestPath (app.resolve (b!"/traces/" ++ span.trace.toText)).text := by
    rw [hp, urlToTrace_eq]
    simp [BaseURL.text, BaseURL.resolve]
  have hbody : ∃ pre, written (DemoStep.ops (demoSteps base app span r.urlPath)) = pre ++ demoLink app span := by
    simp only [List.mem_cons, List.not_mem_nil, or_false, not_or] at hpath
    unfold demoSteps
    rw [if_neg hpath.1, if_neg hpath.2.1, if_neg hpath.2.2]
    split
    · exact ⟨demoHome, by simp only [DemoStep.ops, written, List.append_nil]⟩
    · split
      · exact ⟨demoCallsPage, by simp only [DemoStep.ops, written, List.append_nil]⟩
      · exact ⟨[], by simp only [DemoStep.ops, written, List.append_nil, List.nil_append]⟩
  obtain ⟨pre, hpre⟩ := hbody
  obtain ⟨before, after, hk⟩ := key pre
  exact ⟨_, before, _, after, rfl, hpre.trans hk, hlink, by rw [hp]; exact dispatch_trace _⟩

/-- **C144** (the trace).  A visit to the page of the demo that makes API calls, all of which arrive, is shown as a trace: the request, and
below it the three calls, named after the demo's host, and the three requests, named after their paths, with nothing below them. -/
theorem demo_trace_shown {base app : BaseURL} {reg : Registry} (hreg : registerAll libraryEvents [] = some reg) {ops : List StoreOp} {ms : MemStore}
    (h : MemStore.new.run ops = some ms) {root : Handled} (hok : root.Ok) (hdemo : DemoHandled base app root)
    (hpath : root.req.request.urlPath = b!"/api-calls")
    (hfirst : root.req.header.Lacks b!"Span-Id" ∧ root.req.header.Lacks b!"Parent-Span-Id")
    (hd : (root.tree.spans.map fun sp => sp.id.span).Nodup) (hz : ∀ sp ∈ root.tree.spans, sp.id.span ≠ 0)
    (hL : (live root.req.id.trace ops).Perm root.deliveries) :
    ∃ tr cs, ms.view root.req.id.trace = .found tr ∧ tr.span.id = root.req.id ∧ annotationsName tr.span.annotations = b!"Serve /api-calls" ∧
      cs.Perm tr.sub ∧ List.Forall₂ Leaf [b!"Request " ++ base.host, b!"Request " ++ base.host, b!"Request " ++ base.host,
        b!"Serve /endpoint-A", b!"Serve /endpoint-B", b!"Serve /endpoint-C"] cs := by
  obtain ⟨f, tr, hf, h1, h2, h3⟩ := services_delivered hreg h hok hfirst hd hz hL
  cases hdemo with
  | mk s calls children next route made arrived handled =>
  cases hok with
  | mk _ _ _ _ hs hcalls _ hchildren _ =>
  have hgets : DemoStep.gets (demoSteps base app s.id s.request.urlPath) =
      [base.resolve b!"/endpoint-A", base.resolve b!"/endpoint-B", base.resolve b!"/endpoint-C"] := by
    rw [show s.request.urlPath = b!"/api-calls" from hpath]; rfl
  rw [hgets] at made
  obtain ⟨c1, c2, c3, rfl, m1, m2, m3⟩ : ∃ c1 c2 c3, calls = [c1, c2, c3] ∧ DemoCall c1 (base.resolve b!"/endpoint-A") ∧
      DemoCall c2 (base.resolve b!"/endpoint-B") ∧ DemoCall c3 (base.resolve b!"/endpoint-C") := by
    cases made with
    | cons m1 made => cases made with
      | cons m2 made => cases made with
        | cons m3 made => cases made with
          | nil => exact ⟨_, _, _, rfl, m1, m2, m3⟩
  obtain ⟨k1, k2, k3, rfl, a1, a2, a3⟩ : ∃ k1 k2 k3, children = [k1, k2, k3] ∧ k1.req.request.urlPath = c1.original.urlPath ∧
      k2.req.request.urlPath = c2.original.urlPath ∧ k3.req.request.urlPath = c3.original.urlPath := by
    cases arrived with
    | cons m1 made => cases made with
      | cons m2 made => cases made with
        | cons m3 made => cases made with
          | nil => exact ⟨_, _, _, rfl, m1.2, m2.2, m3.2⟩
  have hcall : ∀ c ∈ [c1, c2, c3], ∀ p, DemoCall c (base.resolve p) → annotationsName (f c.out.recorder.span) = b!"Request " ++ base.host := by
    intro c hc p hm
    obtain ⟨as, e1, e2⟩ := call_named (hcalls c hc) hm.named
    have := hf (c.out.recorder.span, as) (clientCalls_delivered (.mk s [c1, c2, c3] [] [k1, k2, k3]) c (by
      simp only [Handled.clientCalls]; exact List.mem_append_left _ hc) _ (by rw [e1]; exact List.mem_singleton.2 rfl))
    rw [← this, e2, hm.request]
    rfl
  have hchild : ∀ k ∈ [k1, k2, k3], ∀ p, p ∈ [b!"/endpoint-A", b!"/endpoint-B", b!"/endpoint-C"] → k.req.request.urlPath = p →
      annotationsName (f k.req.id) = b!"Serve " ++ p ∧ k.tree = .node ⟨k.req.id, []⟩ [] := by
    intro k hk p hp hkp
    have hko := hchildren k hk
    have hkd := handled k hk
    have hin : ∀ s' ∈ k.requests, s' ∈ (Handled.mk s [c1, c2, c3] [] [k1, k2, k3]).requests := by
      intro s' hs'
      simp only [Handled.requests, Handled.requestsOf, List.append_nil]
      simp only [List.mem_cons, List.not_mem_nil, or_false] at hk
      rcases hk with rfl | rfl | rfl <;> simp [hs']
    cases hkd with
    | mk s' calls' children' next' route' made' arrived' _ =>
    cases hko with
    | mk _ _ _ _ hs' _ _ _ _ =>
    obtain ⟨rec, as, e1, e2, e3⟩ := served_named hs'
    have := hf (s'.id, as) (requests_delivered (.mk s [c1, c2, c3] [] [k1, k2, k3]) s' (hin s' (by simp [Handled.requests])) rec e1 _
      (by rw [e2]; exact List.mem_singleton.2 rfl))
    replace hkp : s'.request.urlPath = p := hkp
    have hrun : s'.run.request = s'.request := by
      have := hs'.handler
      rw [next', demoNext] at this
      rw [← Option.some.inj this]
    constructor
    · show annotationsName (f s'.id) = _
      rw [← this, e3, route']
      simp only [Option.map_some, Option.getD_some, demoRoute, hrun, hkp]
      simp only [List.mem_cons, List.not_mem_nil, or_false] at hp
      rcases hp with rfl | rfl | rfl <;> rfl
    · have hg : DemoStep.gets (demoSteps base app s'.id s'.request.urlPath) = [] := by
        rw [hkp]
        simp only [List.mem_cons, List.not_mem_nil, or_false] at hp
        rcases hp with rfl | rfl | rfl <;> rfl
      rw [hg] at made'
      cases made'
      cases arrived'
      rfl
  obtain ⟨n1, t1⟩ := hchild k1 (by simp) b!"/endpoint-A" (by simp) (by rw [a1, m1.request]; rfl)
  obtain ⟨n2, t2⟩ := hchild k2 (by simp) b!"/endpoint-B" (by simp) (by rw [a2, m2.request]; rfl)
  obtain ⟨n3, t3⟩ := hchild k3 (by simp) b!"/endpoint-C" (by simp) (by rw [a3, m3.request]; rfl)
  have hroot : annotationsName (f s.id) = b!"Serve /api-calls" := by
    obtain ⟨rec, as, e1, e2, e3⟩ := served_named hs
    have := hf (s.id, as) (requests_delivered (.mk s [c1, c2, c3] [] [k1, k2, k3]) s (by simp [Handled.requests]) rec e1 _
      (by rw [e2]; exact List.mem_singleton.2 rfl))
    have hrun : s.run.request = s.request := by
      have := hs.handler
      rw [next, demoNext] at this
      rw [← Option.some.inj this]
    rw [← this, e3, route]
    simp only [Option.map_some, Option.getD_some, demoRoute, hrun, show s.request.urlPath = b!"/api-calls" from hpath]
    rfl
  have htree : reannotate f (Handled.mk s [c1, c2, c3] [] [k1, k2, k3]).tree = .node ⟨s.id, f s.id⟩
      [.node ⟨c1.out.recorder.span, f c1.out.recorder.span⟩ [], .node ⟨c2.out.recorder.span, f c2.out.recorder.span⟩ [],
        .node ⟨c3.out.recorder.span, f c3.out.recorder.span⟩ [], .node ⟨k1.req.id, f k1.req.id⟩ [], .node ⟨k2.req.id, f k2.req.id⟩ [],
        .node ⟨k3.req.id, f k3.req.id⟩ []] := by
    simp [Handled.tree, Handled.trees, t1, t2, t3, reannotate, reannotateList]
  rw [htree] at h2
  obtain ⟨sp, ts⟩ := tr
  cases h2 with
  | node e1 _ hforest =>
  obtain ⟨cs, hcs, hm⟩ := forestEquiv_matching hforest
  have leaf : ∀ (c : Tree) (i : SpanID) (n : Bytes), c ∈ cs → TreeEquiv c (.node ⟨i, f i⟩ []) → annotationsName (f i) = n → Leaf n c := by
    intro c i n hc he hn
    have hmem : c.span ∈ (Tree.node sp ts).spans := by
      rw [Tree.spans]
      refine List.mem_cons_of_mem _ (mem_treesSpans (hcs.subset hc) ?_)
      cases c
      simp [Tree.spans, Tree.span]
    have ha := h3 _ hmem
    cases he with
    | node e _ hf' =>
      generalize hg : ([] : List Tree) = us at hf'
      cases hf' with
      | cons _ _ => exact absurd hg (by simp)
      | nil =>
      exact ⟨(congrArg annotationsName (ha.trans (congrArg f e))).trans hn, rfl⟩
  refine ⟨.node sp ts, cs, h1, e1, ?_, hcs, ?_⟩
  · have : sp.annotations = f sp.id := h3 sp (by rw [Tree.spans]; exact List.mem_cons_self ..)
    show annotationsName sp.annotations = _
    rw [this, show sp.id = s.id from e1, hroot]
  · cases hm with
    | cons q1 hm => cases hm with
      | cons q2 hm => cases hm with
        | cons q3 hm => cases hm with
          | cons q4 hm => cases hm with
            | cons q5 hm => cases hm with
              | cons q6 hm => cases hm with
                | nil =>
                  exact .cons (leaf _ _ _ (by simp) q1 (hcall c1 (by simp) _ m1)) (.cons (leaf _ _ _ (by simp) q2 (hcall c2 (by simp) _ m2))
                    (.cons (leaf _ _ _ (by simp) q3 (hcall c3 (by simp) _ m3)) (.cons (leaf _ _ _ (by simp) q4 n1)
                      (.cons (leaf _ _ _ (by simp) q5 n2) (.cons (leaf _ _ _ (by simp) q6 n3) .nil)))))

/-! ## A visit -/

/-- The URLs that the demo uses by default. -/
def demoBase : BaseURL := ⟨b!"http", b!"localhost:8699", []⟩
def demoApplication : BaseURL := ⟨b!"http", b!"localhost:8700", []⟩

example : PlainOption b!"" b!"8699" ∧ demoURL (fun s => some ⟨b!"http", s.drop 7, []⟩) b!":8699" = some demoBase := by
  unfold PlainOption; decide

/-- The demo's server; the middleware takes its IDs from `src`. -/
def demoEnv (src : Nat → ID) : ServerEnv := ⟨⟨[], fun _ _ => false⟩, ⟨fun _ _ => none, fun _ _ _ => []⟩, src, some demoRoute, none,
  demoNext demoBase demoApplication, true, .zero, .zero⟩

/-- A request that the demo receives. -/
def demoIncoming (path : Bytes) : Request := ⟨b!"GET", path, [], path, b!"HTTP/1.1", b!"localhost:8699", b!"127.0.0.1", 0, 0, []⟩

/-- The client in the handler; it takes the IDs `g` and `g + 1`. -/
def demoClient (g : ID) : ClientEnv := ⟨⟨1, 2, 0⟩, true, ⟨[], fun _ _ => false⟩, ⟨fun _ _ => none, fun _ _ _ => []⟩, fun i => g + i.toUInt64,
  fun _ _ => .ok ⟨[], [], 2, 200⟩, .zero, .zero⟩

/-- A call of the handler. -/
def demoCallOf (g : ID) (path : Bytes) (out : ClientRun) : ClientCall := ⟨demoClient g, 0, [[]], demoGet (demoBase.resolve path) 0, out⟩

/-- A request to an endpoint. -/
def demoEndpoint (g : ID) (path : Bytes) (header : Header) (out : ServerRun) : Handled :=
  .mk ⟨demoEnv (fun _ => 99), 0, demoIncoming path, header, out,
    ⟨DemoStep.ops (demoSteps demoBase demoApplication ⟨1, g + 1, 2⟩ path), [], demoIncoming path, header⟩, ⟨1, g + 1, 2⟩⟩ [] [] []

theorem zero_time_holds : ScalarTy.time.holds (.time .zero) = true := by decide

theorem demo_call_ok {g : ID} {path : Bytes} {out : ClientRun} (h : RoundTrips (demoClient g) 0 [[]] (demoGet (demoBase.resolve path) 0) out) :
    (demoCallOf g path out).Ok ⟨1, 2, 0⟩ ∧ DemoCall (demoCallOf g path out) (demoBase.resolve path) ∧ out.recorder.span = ⟨1, g, 2⟩ ∧
      out.sentHeader = [(b!"Span-Id", [SpanID.toText ⟨1, g + 1, 2⟩])] := by
  have hspan : out.recorder.span = ⟨1, g, 2⟩ := by
    obtain ⟨h1, h2, -⟩ := round_trip_spans (demoClient g) 0 [[]] _ out h
    revert h1 h2
    generalize out.recorder.span = i
    intro h1 h2
    cases i
    simp only [SpanID.mk.injEq]
    exact ⟨h1.trace, by simpa [demoClient] using h2, h1.parent⟩
  refine ⟨⟨h, rfl, fun _ _ => rfl, ⟨zero_time_holds, zero_time_holds⟩, show FitsInt64 0 by unfold FitsInt64; decide, ?_, ?_, .nil⟩, ⟨rfl, rfl, rfl⟩, hspan, ?_⟩
  · intro resp hr
    have : out.result = .ok ⟨[], [], 2, 200⟩ := h.2.2.2.1
    rw [show (demoCallOf g path out).out.result = out.result from rfl, this] at hr
    injection hr with hr
    subst hr
    exact ⟨by unfold FitsInt64; decide, by unfold FitsInt64; decide⟩
  · intro k hk; cases hk
  · rw [h.2.2.1]
    rfl

theorem demo_endpoint_ok {g : ID} {path : Bytes} (hp : path ∈ [b!"/endpoint-A", b!"/endpoint-B", b!"/endpoint-C"]) {header : Header}
    (hh : header = [(b!"Span-Id", [SpanID.toText ⟨1, g + 1, 2⟩])]) {out : ServerRun}
    (h : Serves (demoEnv fun _ => 99) 0 (demoIncoming path) header out) :
    (demoEndpoint g path header out).Ok ∧ DemoHandled demoBase demoApplication (demoEndpoint g path header out) := by
  have hg : DemoStep.gets (demoSteps demoBase demoApplication ⟨1, g + 1, 2⟩ path) = [] := by
    simp only [List.mem_cons, List.not_mem_nil, or_false] at hp
    rcases hp with rfl | rfl | rfl <;> rfl
  constructor
  · refine .mk _ _ _ _ ⟨h, ?_, rfl, fun _ _ => rfl, ⟨zero_time_holds, zero_time_holds⟩, ⟨show FitsInt64 0 by unfold FitsInt64; decide,
      show FitsInt64 0 by unfold FitsInt64; decide⟩, ?_, ?_⟩ (by simp) (by simp) (by simp) (by simp)
    · show getSpanID (fun _ => 99) 0 header = (some ⟨1, g + 1, 2⟩, none)
      rw [hh]
      have e : Header.find [(b!"Span-Id", [SpanID.toText ⟨1, g + 1, 2⟩])] headerSpanID = SpanID.toText ⟨1, g + 1, 2⟩ := rfl
      have hne : SpanID.toText ⟨1, g + 1, 2⟩ ≠ [] := by
        intro h0
        have := parseSpanID_toText ⟨1, g + 1, 2⟩
        rw [h0] at this
        cases this
      simp only [getSpanID, getSpanIDFrom, getSpanIDHeader, e, hne, if_false, parseSpanID_toText]
    · simp only [List.mem_cons, List.not_mem_nil, or_false] at hp
      rcases hp with rfl | rfl | rfl
      · show (b!"performed an operation!").length < 2 ^ 63; decide
      · show (b!"performed another operation!").length < 2 ^ 63; decide
      · show (b!"performed yet another operation!").length < 2 ^ 63; decide
    · simp only [List.mem_cons, List.not_mem_nil, or_false] at hp
      rcases hp with rfl | rfl | rfl <;> (intro c hc; cases hc)
  · refine .mk _ _ _ rfl rfl ?_ .nil (by simp)
    show List.Forall₂ DemoCall [] (DemoStep.gets (demoSteps demoBase demoApplication ⟨1, g + 1, 2⟩ path))
    rw [hg]
    exact .nil

/-- The visit. -/
def demoVisit (sout : ServerRun) (c1 c2 c3 : ClientRun) (k1 k2 k3 : ServerRun) : Handled :=
  .mk ⟨demoEnv (fun i => 1 + i.toUInt64), 0, demoIncoming b!"/api-calls", [], sout,
      ⟨DemoStep.ops (demoSteps demoBase demoApplication ⟨1, 2, 0⟩ b!"/api-calls"), [], demoIncoming b!"/api-calls", []⟩, ⟨1, 2, 0⟩⟩
    [demoCallOf 3 b!"/endpoint-A" c1, demoCallOf 5 b!"/endpoint-B" c2, demoCallOf 7 b!"/endpoint-C" c3] []
    [demoEndpoint 3 b!"/endpoint-A" c1.sentHeader k1, demoEndpoint 5 b!"/endpoint-B" c2.sentHeader k2, demoEndpoint 7 b!"/endpoint-C" c3.sentHeader k3]

/-- A visit to the page meets the hypotheses of `demo_trace_shown` (and of `services_named`). -/
example : ∃ (root : Handled) (ops : List StoreOp) (ms : MemStore), root.Ok ∧ DemoHandled demoBase demoApplication root ∧
    root.req.request.urlPath = b!"/api-calls" ∧ root.req.header.Lacks b!"Span-Id" ∧ root.req.header.Lacks b!"Parent-Span-Id" ∧
    (root.tree.spans.map fun sp => sp.id.span).Nodup ∧ (∀ sp ∈ root.tree.spans, sp.id.span ≠ 0) ∧
    MemStore.new.run ops = some ms ∧ (live root.req.id.trace ops).Perm root.deliveries := by
  obtain ⟨reg, hreg⟩ : ∃ reg, registerAll libraryEvents [] = some reg := ⟨_, rfl⟩
  obtain ⟨sout, hs⟩ := serves_total (demoEnv fun i => 1 + i.toUInt64) 0 (demoIncoming b!"/api-calls") []
  obtain ⟨c1, hc1⟩ := round_trips_total (demoClient 3) 0 [[]] (demoGet (demoBase.resolve b!"/endpoint-A") 0)
  obtain ⟨c2, hc2⟩ := round_trips_total (demoClient 5) 0 [[]] (demoGet (demoBase.resolve b!"/endpoint-B") 0)
  obtain ⟨c3, hc3⟩ := round_trips_total (demoClient 7) 0 [[]] (demoGet (demoBase.resolve b!"/endpoint-C") 0)
  obtain ⟨k1, hk1⟩ := serves_total (demoEnv fun _ => 99) 0 (demoIncoming b!"/endpoint-A") c1.sentHeader
  obtain ⟨k2, hk2⟩ := serves_total (demoEnv fun _ => 99) 0 (demoIncoming b!"/endpoint-B") c2.sentHeader
  obtain ⟨k3, hk3⟩ := serves_total (demoEnv fun _ => 99) 0 (demoIncoming b!"/endpoint-C") c3.sentHeader
  obtain ⟨o1, d1, e1, s1⟩ := demo_call_ok hc1
  obtain ⟨o2, d2, e2, s2⟩ := demo_call_ok hc2
  obtain ⟨o3, d3, e3, s3⟩ := demo_call_ok hc3
  obtain ⟨p1, q1⟩ := demo_endpoint_ok (g := 3) (by simp) s1 hk1
  obtain ⟨p2, q2⟩ := demo_endpoint_ok (g := 5) (by simp) s2 hk2
  obtain ⟨p3, q3⟩ := demo_endpoint_ok (g := 7) (by simp) s3 hk3
  have hd1 : Delivered c1.sentHeader c1.sentHeader := by rw [s1]; exact delivered_self _ (by decide) (by decide)
  have hd2 : Delivered c2.sentHeader c2.sentHeader := by rw [s2]; exact delivered_self _ (by decide) (by decide)
  have hd3 : Delivered c3.sentHeader c3.sentHeader := by rw [s3]; exact delivered_self _ (by decide) (by decide)
  have hok : (demoVisit sout c1 c2 c3 k1 k2 k3).Ok := by
    refine .mk _ _ _ _ ⟨hs, show getSpanID (fun i => 1 + i.toUInt64) 0 [] = (some ⟨1, 2, 0⟩, none) by decide, rfl, fun _ _ => rfl,
      ⟨zero_time_holds, zero_time_holds⟩, ⟨show FitsInt64 0 by unfold FitsInt64; decide, show FitsInt64 0 by unfold FitsInt64; decide⟩, ?_, ?_⟩ ?_ (by simp) ?_ ?_
    · show (written (DemoStep.ops (demoSteps demoBase demoApplication ⟨1, 2, 0⟩ b!"/api-calls"))).length < 2 ^ 63
      decide +kernel
    · intro c hc; cases hc
    · intro c hc
      simp only [List.mem_cons, List.not_mem_nil, or_false] at hc
      rcases hc with rfl | rfl | rfl <;> assumption
    · intro c hc
      simp only [List.mem_cons, List.not_mem_nil, or_false] at hc
      rcases hc with rfl | rfl | rfl <;> assumption
    · intro c hc
      simp only [List.mem_cons, List.not_mem_nil, or_false] at hc
      rcases hc with rfl | rfl | rfl
      · exact ⟨_, List.mem_cons_self .., hd1⟩
      · exact ⟨_, List.mem_cons_of_mem _ (List.mem_cons_self ..), hd2⟩
      · exact ⟨_, List.mem_cons_of_mem _ (List.mem_cons_of_mem _ (List.mem_cons_self ..)), hd3⟩
  have hdemo : DemoHandled demoBase demoApplication (demoVisit sout c1 c2 c3 k1 k2 k3) := by
    refine .mk _ _ _ rfl rfl (.cons d1 (.cons d2 (.cons d3 .nil))) ?_ ?_
    · exact .cons ⟨hd1, rfl⟩ (.cons ⟨hd2, rfl⟩ (.cons ⟨hd3, rfl⟩ .nil))
    · intro c hc
      simp only [List.mem_cons, List.not_mem_nil, or_false] at hc
      rcases hc with rfl | rfl | rfl <;> assumption
  have htree : (demoVisit sout c1 c2 c3 k1 k2 k3).tree.spans.map Span.id =
      [⟨1, 2, 0⟩, ⟨1, 3, 2⟩, ⟨1, 5, 2⟩, ⟨1, 7, 2⟩, ⟨1, 4, 2⟩, ⟨1, 6, 2⟩, ⟨1, 8, 2⟩] := by
    simp only [demoVisit, demoCallOf, demoEndpoint, Handled.tree, Handled.trees, List.map_cons, List.map_nil, List.append_nil, List.cons_append,
      List.nil_append, e1, e2, e3, Tree.spans, Tree.spansList]
    rfl
  have hspans : (demoVisit sout c1 c2 c3 k1 k2 k3).tree.spans.map (fun sp => sp.id.span) = [2, 3, 5, 7, 4, 6, 8] := by
    have := congrArg (List.map SpanID.span) htree
    rw [List.map_map] at this
    exact this
  obtain ⟨ms, hms⟩ := collect_never_panics ((demoVisit sout c1 c2 c3 k1 k2 k3).deliveries.map fun e => StoreOp.collect e.1 e.2)
  refine ⟨demoVisit sout c1 c2 c3 k1 k2 k3, _, ms, hok, hdemo, rfl, lacks_empty _, lacks_empty _, by rw [hspans]; decide, ?_, hms, ?_⟩
  · intro sp hsp
    have : sp.id.span ∈ [2, 3, 5, 7, 4, 6, 8] := hspans ▸ List.mem_map_of_mem (f := fun sp => sp.id.span) hsp
    intro h0
    rw [h0] at this
    revert this
    decide
  · rw [live_of_collects _ _ _ rfl]
    unfold forTrace
    rw [List.filter_eq_self.2]
    intro d hd
    have : d.1 ∈ (demoVisit sout c1 c2 c3 k1 k2 k3).deliveries.map Prod.fst := List.mem_map_of_mem hd
    rw [deliveries_ids hreg _ hok, htree] at this
    simp only [List.mem_cons, List.not_mem_nil, or_false] at this
    rcases this with h | h | h | h | h | h | h <;> rw [h] <;> rfl

end Appdash
