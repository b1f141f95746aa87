import Verif.Proofs.WebApp
import Verif.Properties.Pages
import Verif.Properties.Handler
import Verif.Properties.Router
import Verif.Properties.JsonText

/-!
# Properties C132, C133, C134: the web application, from requests to responses
-/

namespace Appdash

open Spec

/-! ## C132 -/

/-- **C132** (an answer).  Every request is answered.  Unless it is for a file below `/static/`, the answer is one of those of `Answer`: a
redirect exactly for paths that are not clean, `404 page not found` exactly for paths without a route, and `stored` only for an upload. -/
theorem app_answers {τ : Type} (env : WebEnv τ) (files : TemplateFiles) (st : WebState τ) (r : WebRequest) :
    (∃ st' out, AppServes env files st r [] st' out) ∧
    ∀ st' out, AppServes env files st r [] st' out → (∀ v, dispatch r.method r.path ≠ .to .static v) →
      ∃ a, AnsweredBy out a ∧ ((∃ u, a = .redirect u) ↔ dispatch r.method r.path = .redirect) ∧
        (a = .notFound ↔ dispatch r.method r.path = .notFound) ∧
        (a = .disabled → env.agg = none) ∧
        (a = .stored → r.method = .post ∧ r.path = b!"/traces/upload") := by
  constructor
  · unfold AppServes
    cases hd : dispatch r.method r.path with
    | redirect => exact ⟨_, _, rfl, rfl⟩
    | notFound => exact ⟨_, _, rfl, rfl⟩
    | «to» n vars =>
      dsimp only
      split
      · exact ⟨_, _, rfl, rfl⟩
      · obtain ⟨out, ho⟩ := pageServes_total (handleRoute env files st n r vars).2 env.panicText (.new [])
        exact ⟨_, out, rfl, ho⟩
  · intro st' out hs hns
    unfold AppServes at hs
    cases hd : dispatch r.method r.path with
    | redirect =>
      rw [hd] at hs
      refine ⟨.redirect (env.location r.path r.query), ⟨_, hs.2, ?_⟩, by simp, by simp, by simp, by simp⟩
      simp only [Answer.response, WebWriter.received, WebWriter.new]
      rfl
    | notFound =>
      rw [hd] at hs
      refine ⟨.notFound, ⟨_, hs.2, by decide⟩, by simp, by simp, by simp, by simp⟩
    | «to» n vars =>
      rw [hd] at hs
      dsimp only at hs
      have hn : n ≠ .static := fun e => hns vars (e ▸ hd)
      rw [if_neg hn] at hs
      obtain ⟨a, ha⟩ := handleRoute_is env files st n r vars
      refine ⟨a, ha.answers hs.2, ?_, ?_, ?_, ?_⟩
      · have : ∀ u, a ≠ .redirect u := by
          intro u e; subst e; generalize (handleRoute env files st n r vars).2 = p at ha; cases ha
        simp [this]
      · have : a ≠ .notFound := by
          intro e; subst e; generalize (handleRoute env files st n r vars).2 = p at ha; cases ha
        simp [this]
      · intro e
        subst e
        exact handleRoute_disabled ha
      · intro e
        subst e
        have := handleRoute_stored ha hn
        subst this
        exact dispatch_upload hd

/-- **C132** (reading does not write).  A request changes the store only if it is a POST to `/traces/upload` or a GET of a page below
`/traces/` with a parameter `permalink`. -/
theorem app_read_only {τ : Type} {env : WebEnv τ} {files : TemplateFiles} {st st' : WebState τ} {r : WebRequest} {h : Header}
    {out : Option WebWriter} (hs : AppServes env files st r h st' out) (hc : st'.store ≠ st.store) :
    (r.method = .post ∧ r.path = b!"/traces/upload" ∧ st'.store = (serveUploadBody st.store r.body).1) ∨
    (r.method = .get ∧ (b!"/traces/" : Bytes) <+: r.path ∧ queryGet r.query b!"permalink" ≠ [] ∧
      st'.store = (openPermalink env.flate st.store (queryGet r.query b!"permalink")).1) := by
  unfold AppServes at hs
  cases hd : dispatch r.method r.path with
  | redirect => rw [hd] at hs; exact absurd (by rw [hs.1]) hc
  | notFound => rw [hd] at hs; exact absurd (by rw [hs.1]) hc
  | «to» n vars =>
    rw [hd] at hs
    dsimp only at hs
    split at hs
    · exact absurd (by rw [hs.1]) hc
    · rw [hs.1, handleRoute_store] at hc
      rw [hs.1, handleRoute_store]
      by_cases hu : n = .traceUpload
      · subst hu
        obtain ⟨h1, h2⟩ := dispatch_upload hd
        exact Or.inl ⟨h1, h2, by simp⟩
      · rw [if_neg hu] at hc ⊢
        by_cases ht : servedByTrace n = true
        · rw [if_pos ht] at hc ⊢
          obtain ⟨h1, h2⟩ := dispatch_traceRoute hd ht
          right
          refine ⟨h1, h2, ?_⟩
          unfold serveTraceRequest at hc ⊢
          by_cases hq : queryGet r.query b!"permalink" ≠ []
          · rw [if_pos hq]
            refine ⟨hq, ?_⟩
            rcases openPermalink env.flate st.store (queryGet r.query b!"permalink") with ⟨ms, _ | _ | _⟩ <;> rfl
          · rw [if_neg hq] at hc
            exact absurd rfl hc
        · rw [if_neg ht] at hc
          exact absurd rfl hc

/-- What is answered when a trace page is asked for, given what `visit` selects. -/
def traceAnswer {τ : Type} (env : WebEnv τ) (t : τ) (c : PageCommon) : Except ServeErr (Tree × Bool) → Answer
  | .error e => .failed (env.errText (.page (.serve e)))
  | .ok (tr, true) =>
    match calcProfile env.view tr with
    | none => .failed env.panicText
    | some (.error e) => .failed (env.errText (.page (.event e)))
    | some (.ok (ps, _)) => .data (JVal.print .compact 0 (.arr (ps.map fun p => .obj (profileMembers p))))
  | .ok (tr, false) =>
    match tracePage env.view env.flate env.nils tr with
    | none => .failed env.panicText
    | some (.error e) => .failed (env.errText (.page e))
    | some (.ok (.profile ps)) => .data (JVal.print .compact 0 (.arr (ps.map fun p => .obj (profileMembers p))))
    | some (.ok (.page pg)) =>
      match env.execute t c (.trace pg) with
      | some html => .html html
      | none => .failed (env.errText .execute)

/-- **C132** (trace pages).  A GET without `permalink` for the URL of a trace, a span or a profile is answered with the page that the
template makes of the (sub-)trace that the URL stands for (see C54), with its profile as JSON, or with an error. -/
theorem trace_request_answer {τ : Type} {env : WebEnv τ} {files : TemplateFiles} (hg : GoodFiles env files) {st st' : WebState τ}
    (hst : st.tmpls = none ∨ env.reload = true) {r : WebRequest} (hm : r.method = .get) (hq : queryGet r.query b!"permalink" = [])
    {res : Except ServeErr (Tree × Bool)} (hv : visit st.store.lookup r.path = some res) {out : Option WebWriter}
    (hs : AppServes env files st r [] st' out) :
    st'.store = st.store ∧ ∃ t n vars, Compiled env files b!"trace.html" t ∧
      dispatch .get r.path = .to n vars ∧ AnsweredBy out (traceAnswer env t (common env n r) res) := by
  obtain ⟨t, ht⟩ := hg b!"trace.html" (by simp)
  have hro : st'.store = st.store := by
    by_contra hc
    rcases app_read_only hs hc with ⟨h1, -⟩ | ⟨-, -, h2, -⟩
    · rw [hm] at h1; cases h1
    · exact h2 hq
  refine ⟨hro, t, ?_⟩
  unfold visit at hv
  cases hd : dispatch .get r.path with
  | redirect => rw [hd] at hv; cases hv
  | notFound => rw [hd] at hv; cases hv
  | «to» n vars =>
    rw [hd] at hv
    dsimp only at hv
    split at hv
    · rename_i hserved
      injection hv with hv
      refine ⟨n, vars, ht, rfl, ?_⟩
      unfold AppServes at hs
      rw [hm, hd] at hs
      dsimp only at hs
      have hns : n ≠ .static := by rintro rfl; revert hserved; decide
      rw [if_neg hns] at hs
      have e : handleRoute env files st n r vars = tracePageOf env files st n r vars := by
        cases n <;> first | rfl | exact absurd hserved (by decide)
      rw [e] at hs
      refine PageIs.answers ?_ hs.2
      have hsv : serveTraceRequest env.view env.flate env.nils st.store r.path r.query vars =
          (st.store, showTrace env.view env.flate env.nils st.store r.path vars) := by
        simp only [serveTraceRequest, hq, ne_eq, not_true_eq_false, if_false]
      unfold tracePageOf
      rw [hsv]
      unfold showTrace
      rw [hv]
      dsimp only
      cases res with
      | error er => exact .failed
      | ok x =>
        obtain ⟨tr, b⟩ := x
        cases b with
        | true =>
          simp only [traceAnswer, traceProfile]
          rcases calcProfile env.view tr with _ | _ | ⟨ps, p⟩
          · exact .panicked
          · exact .failed
          · exact .data
        | false =>
          simp only [traceAnswer]
          rcases tracePage env.view env.flate env.nils tr with _ | er | pg | ps
          · exact .panicked
          · exact .failed
          · dsimp only
            exact renderWith_good env hg hst n r (by simp) (.trace pg) ht
          · exact .data
    · cases hv

/-- **C132** (credentials).  With the option `BasicAuth`, a request whose `Authorization` header is not exactly the configured one is
answered with 401 and changes nothing; any other is served by the application. -/
theorem server_auth {τ : Type} {env : WebEnv τ} {want : Bytes} {files : TemplateFiles} {st st' : WebState τ} {r : WebRequest}
    {out : Option WebWriter} (hs : ServerServes env (some want) files st r st' out) :
    (r.header.find b!"Authorization" = want → AppServes env files st r [] st' out) ∧
    (r.header.find b!"Authorization" ≠ want → st' = st ∧ ∃ w, out = some w ∧ w.received = unauthorizedResponse []) := by
  obtain ⟨h1, h2⟩ := auth_exact want (fun w => some w) r.header []
  unfold ServerServes at hs
  dsimp only at hs
  constructor
  · intro h
    rw [h1 h] at hs
    simpa using hs
  · intro h
    obtain ⟨w, e, hw⟩ := h2 h
    rw [e] at hs
    simp only [Bool.false_eq_true, if_false] at hs
    exact ⟨hs.1, w, hs.2, hw⟩

/-- **C132** (uploads).  A POST to `/traces/upload` has the effect on the store that C51 and C130 describe; it is answered with an empty
response exactly if all of its traces were read and stored. -/
theorem upload_request_answer {τ : Type} {env : WebEnv τ} {files : TemplateFiles} {st st' : WebState τ} {r : WebRequest}
    (hm : r.method = .post) (hp : r.path = b!"/traces/upload") {out : Option WebWriter} (hs : AppServes env files st r [] st' out) :
    st'.store = (serveUploadBody st.store r.body).1 ∧ st'.tmpls = st.tmpls ∧
      (AnsweredBy out .stored ↔ (serveUploadBody st.store r.body).2 = .ok) ∧
      ((serveUploadBody st.store r.body).2 ≠ .ok → ∃ msg, AnsweredBy out (.failed msg)) := by
  have hd : dispatch .post b!"/traces/upload" = .to .traceUpload [] := by decide
  unfold AppServes at hs
  rw [hm, hp, hd] at hs
  dsimp only at hs
  rw [if_neg (by decide)] at hs
  have key : ∀ msg, AnsweredBy out (.failed msg) → ¬ AnsweredBy out .stored := by
    rintro msg ⟨w, e, hw⟩ ⟨w', e', hw'⟩
    rw [e] at e'
    injection e' with e'
    subst e'
    rw [hw] at hw'
    have := congrArg (fun x : Int × Header × Bytes => x.1) hw'
    exact absurd this (by decide : ¬ (500 : Int) = 200)
  simp only [handleRoute] at hs
  revert hs
  rcases serveUploadBody st.store r.body with ⟨ms, _ | _ | _⟩ <;> intro hs <;> dsimp only at hs
  · have ha := PageIs.answers .stored hs.2
    exact ⟨by rw [hs.1], by rw [hs.1], by simp [ha], by simp⟩
  · have ha := PageIs.answers .failed hs.2
    exact ⟨by rw [hs.1], by rw [hs.1], by simp [key _ ha], fun _ => ⟨_, ha⟩⟩
  · have ha := PageIs.answers .panicked hs.2
    exact ⟨by rw [hs.1], by rw [hs.1], by simp [key _ ha], fun _ => ⟨_, ha⟩⟩

/-- **C132** (from one server to another).  The JSON text of a trace that is stored in one server is posted to another that does not have the
trace; this is accepted.  When its page is asked for, it is what the template makes of the original trace. -/
theorem upload_then_shown {τ : Type} {env : WebEnv τ} {files files' : TemplateFiles} (hg : GoodFiles env files') {st st1 st2 : WebState τ}
    {ops ops' : List StoreOp} {ms : MemStore} (h : MemStore.new.run ops = some ms) (h' : MemStore.new.run ops' = some st.store)
    (hst : st.tmpls = none ∨ env.reload = true) {t : ID} {tr : Tree} (hv : ms.view t = .found tr)
    (hn : st.store.view t = .notFound) (hk : UTF8Keys tr) (hr : TrueRoot tr) {nils : SpanID → Bool × Bool} {text : Bytes}
    (ht : IsExport nils tr text) {q : Bytes} {hd : Header} {out1 out2 : Option WebWriter}
    (h1 : AppServes env files st ⟨.post, b!"/traces/upload", q, hd, text⟩ [] st1 out1)
    (h2 : AppServes env files' st1 ⟨.get, urlToTrace t, [], hd, []⟩ [] st2 out2) :
    AnsweredBy out1 .stored ∧ ∃ tmpl, Compiled env files' b!"trace.html" tmpl ∧
      AnsweredBy out2 (traceAnswer env tmpl (common env .trace ⟨.get, urlToTrace t, [], hd, []⟩) (.ok (tr, false))) := by
  obtain ⟨ms'', hup, hview⟩ := upload_text_reproduces h h' hv hn hk hr nils ht
  obtain ⟨e1, e2, e3, -⟩ := upload_request_answer rfl rfl h1
  simp only [hup] at e1 e3
  refine ⟨e3.2 trivial, ?_⟩
  have hl : st1.store.lookup t = .ok tr := by simp only [MemStore.lookup, e1, hview]
  have := (visit_trace st1.store.lookup t).1
  rw [hl] at this
  obtain ⟨-, tmpl, n, vars, h3, h4, h5⟩ :=
    trace_request_answer hg (by rw [e2]; exact hst) (r := ⟨.get, urlToTrace t, [], hd, []⟩) rfl rfl this h2
  rw [dispatch_trace] at h4
  injection h4 with h4
  subst h4
  exact ⟨tmpl, h3, h5⟩

/-- **C132** (the list).  `/traces` shows the template's page of a list in which each stored trace occurs once, with or without a parameter
`show` (see C58). -/
theorem list_request_answer {τ : Type} {env : WebEnv τ} {files : TemplateFiles} (hg : GoodFiles env files) {st st' : WebState τ}
    {ops : List StoreOp} (h : MemStore.new.run ops = some st.store) (hst : st.tmpls = none ∨ env.reload = true) {r : WebRequest}
    (hm : r.method = .get) (hp : r.path = b!"/traces") {out : Option WebWriter} (hs : AppServes env files st r [] st' out) :
    st'.store = st.store ∧ ∃ t ts, Compiled env files b!"traces.html" t ∧
      (∀ tr, tr ∈ ts ↔ ∃ i, st.store.view i = .found tr) ∧ (ts.map fun tr => tr.span.id.trace).Nodup ∧
      AnsweredBy out (match env.execute t (common env .traces r) (.traces ts) with
        | some html => .html html
        | none => .failed (env.errText .execute)) := by
  obtain ⟨t, ht⟩ := hg b!"traces.html" (by simp)
  obtain ⟨ts, hts, h1, h2⟩ := traces_lists_all h { traceIDs := showIDs r.query } _ (.refl _)
  have hd : dispatch .get b!"/traces" = .to .traces [] := by decide
  unfold AppServes at hs
  rw [hm, hp, hd] at hs
  dsimp only at hs
  rw [if_neg (by decide)] at hs
  simp only [handleRoute, hts] at hs
  refine ⟨by rw [hs.1, renderWith_store], t, ts, ht, h1, h2, ?_⟩
  exact (renderWith_good env hg hst .traces r (by simp) (.traces ts) ht).answers hs.2

/-- The answer with the page that a template makes of some data. -/
def pageAnswer {τ : Type} (env : WebEnv τ) (t : τ) (c : PageCommon) (data : PageData) : Answer :=
  match env.execute t c data with
  | some html => .html html
  | none => .failed (env.errText .execute)

/-- **C132** (the other pages).  The start page; the dashboard, which is disabled without an aggregator, and its data; the aggregate view of
the traces that are stored. -/
theorem other_requests_answer {τ : Type} {env : WebEnv τ} {files : TemplateFiles} (hg : GoodFiles env files) {st st' : WebState τ}
    (hst : st.tmpls = none ∨ env.reload = true) {r : WebRequest} (hm : r.method = .get) {out : Option WebWriter}
    (hs : AppServes env files st r [] st' out) :
    (r.path = b!"/" → ∃ t, Compiled env files b!"root.html" t ∧
      AnsweredBy out (pageAnswer env t (common env .root r) .root)) ∧
    (r.path = b!"/dashboard" → (env.agg = none → AnsweredBy out .disabled) ∧
      (env.agg ≠ none → ∃ t, Compiled env files b!"dashboard.html" t ∧
        AnsweredBy out (pageAnswer env t (common env .dashboard r) (.dashboard b!"/dashboard/data")))) ∧
    (r.path = b!"/dashboard/data" → AnsweredBy out (match serveDashboardData env.agg r.query with
      | .disabled => .disabled
      | .failed => .failed (env.errText .dashboard)
      | .data body => .data body)) ∧
    (r.path = b!"/aggregate" → ∀ ts, st.store.tracesView (st.store.tracesPtr {}) = some ts →
      (∀ e, serveAggregate env.view ts r.query = some (.error e) → AnsweredBy out (.failed (env.errText (.aggregate e)))) ∧
      (∀ items, serveAggregate env.view ts r.query = some (.ok items) → ∃ t, Compiled env files b!"aggregate.html" t ∧
        AnsweredBy out (pageAnswer env t (common env .aggregate r) (.aggregate items)))) := by
  unfold AppServes at hs
  refine ⟨fun hp => ?_, fun hp => ?_, fun hp => ?_, fun hp ts hts => ?_⟩
  · have hd : dispatch .get b!"/" = .to .root [] := by decide
    rw [hm, hp, hd] at hs
    dsimp only at hs
    rw [if_neg (by decide)] at hs
    obtain ⟨t, ht⟩ := hg b!"root.html" (by simp)
    exact ⟨t, ht, (renderWith_good env hg hst .root r (by simp) .root ht).answers hs.2⟩
  · have hd : dispatch .get b!"/dashboard" = .to .dashboard [] := by decide
    rw [hm, hp, hd] at hs
    dsimp only at hs
    rw [if_neg (by decide)] at hs
    simp only [handleRoute] at hs
    constructor
    · intro ha
      rw [ha] at hs
      exact PageIs.answers .disabled hs.2
    · intro ha
      obtain ⟨agg, ha⟩ := Option.ne_none_iff_exists'.1 ha
      rw [ha] at hs
      obtain ⟨t, ht⟩ := hg b!"dashboard.html" (by simp)
      exact ⟨t, ht, (renderWith_good env hg hst .dashboard r (by simp) _ ht).answers hs.2⟩
  · have hd : dispatch .get b!"/dashboard/data" = .to .dashboardData [] := by decide
    rw [hm, hp, hd] at hs
    dsimp only at hs
    rw [if_neg (by decide)] at hs
    simp only [handleRoute] at hs
    revert hs
    rcases serveDashboardData env.agg r.query with _ | _ | body <;> intro hs <;> dsimp only at hs ⊢
    · exact PageIs.answers .disabled hs.2
    · exact PageIs.answers .failed hs.2
    · exact PageIs.answers .data hs.2
  · have hd : dispatch .get b!"/aggregate" = .to .aggregate [] := by decide
    rw [hm, hp, hd] at hs
    dsimp only at hs
    rw [if_neg (by decide)] at hs
    simp only [handleRoute] at hs
    rw [hts] at hs
    dsimp only at hs
    constructor
    · intro e he
      rw [he] at hs
      exact PageIs.answers .failed hs.2
    · intro items he
      rw [he] at hs
      obtain ⟨t, ht⟩ := hg b!"aggregate.html" (by simp)
      exact ⟨t, ht, (renderWith_good env hg hst .aggregate r (by simp) _ ht).answers hs.2⟩

/-- **C132** (template files).  If one of the template files cannot be read or compiled when they are loaded, no page is shown: not even one
whose own files are good. -/
theorem bad_files_answer {τ : Type} {env : WebEnv τ} {files : TemplateFiles} (hg : ¬ GoodFiles env files) {st st' : WebState τ}
    (hst : st.tmpls = none ∨ env.reload = true) {r : WebRequest} {out : Option WebWriter} (hs : AppServes env files st r [] st' out)
    (hns : ∀ v, dispatch r.method r.path ≠ .to .static v) : ∀ html, ¬ AnsweredBy out (.html html) := by
  intro html ⟨w, hw, hw'⟩
  have hb : (currentTemplates env files st.tmpls).2 = false := by
    have hp : (parseSets env.compile files templateSets []).2 = false := by
      rw [← Bool.not_eq_true]
      intro h
      refine hg fun name hn => ?_
      obtain ⟨t, ht⟩ := parseSets_bad _ _ _ _ h [name, b!"layout.html"] (by
        simp only [List.mem_cons, List.not_mem_nil, or_false] at hn
        rcases hn with rfl | rfl | rfl | rfl | rfl <;> simp [templateSets])
      exact ⟨t, compiled_iff.2 ht⟩
    rcases hst with e | e
    · rw [e]; exact hp
    · cases st.tmpls with
      | none => exact hp
      | some m => simp only [currentTemplates, e, if_true]; exact hp
  have key : ∀ a, AnsweredBy out a → a = .html html := by
    rintro a ⟨w', ha, ha'⟩
    rw [hw] at ha
    injection ha with ha
    subst ha
    exact response_html (ha'.symm.trans hw')
  unfold AppServes at hs
  cases hd : dispatch r.method r.path with
  | redirect =>
    rw [hd] at hs
    have := key (.redirect (env.location r.path r.query)) ⟨_, hs.2, rfl⟩
    cases this
  | notFound =>
    rw [hd] at hs
    have := key .notFound ⟨_, hs.2, by decide⟩
    cases this
  | «to» n vars =>
    rw [hd] at hs
    dsimp only at hs
    have hn : n ≠ .static := fun e => hns vars (e ▸ hd)
    rw [if_neg hn] at hs
    obtain ⟨a, ha⟩ := handleRoute_is env files st n r vars
    have := key a (ha.answers hs.2)
    subst this
    exact handleRoute_bad hb ha

/-! ## Examples -/

/-- An application whose templates are their texts, and whose pages are these texts. -/
def sampleWeb (reload : Bool) : WebEnv (List Bytes) where
  view := sampleEnv
  flate := sampleFlate
  nils := fun _ => (true, true)
  agg := none
  compile := some
  execute := fun t _ _ => some t.flatten
  errText := fun
    | .templateMissing n => n
    | .page (.serve (.store .notFound)) => b!"trace not found"
    | _ => b!"error"
  panicText := b!"panic"
  reload := reload
  static := fun _ w => some w
  location := fun p _ => p

/-- Files whose content is their name, and files that cannot be read. -/
def namedFiles : TemplateFiles := some
def noFiles : TemplateFiles := fun _ => none

def getRequest (path : Bytes) : WebRequest := ⟨.get, path, [], [], []⟩

theorem namedFiles_good (b : Bool) : GoodFiles (sampleWeb b) namedFiles := by
  intro name _
  exact ⟨_, _, _, rfl, rfl, rfl⟩

/-- The store of a program that recorded one named span and a child of it. -/
def uploadedOps : List StoreOp := [.collect ⟨1, 2, 0⟩ [⟨b!"Name", some b!"root"⟩], .collect ⟨1, 3, 2⟩ []]

/-- The hypotheses of `upload_then_shown` are met: the export of `uploadedOps`, uploaded to an empty server, is shown by it. -/
example : ∃ ms tr st1 out1 st2 out2, MemStore.new.run uploadedOps = some ms ∧ MemStore.new.run [] = some MemStore.new ∧
    ms.view 1 = .found tr ∧ MemStore.new.view 1 = .notFound ∧ UTF8Keys tr ∧ TrueRoot tr ∧ tr.spans.length = 2 ∧
    IsExport (fun _ => (true, true)) tr (exportText (fun _ => (true, true)) tr) ∧
    AppServes (sampleWeb false) namedFiles ⟨MemStore.new, none⟩
      ⟨.post, b!"/traces/upload", [], [], exportText (fun _ => (true, true)) tr⟩ [] st1 out1 ∧
    AppServes (sampleWeb false) namedFiles st1 ⟨.get, urlToTrace 1, [], [], []⟩ [] st2 out2 ∧
    AnsweredBy out1 .stored ∧ AnsweredBy out2 (.html b!"/trace.html/layout.html") := by
  have hv : ∃ ms, MemStore.new.run uploadedOps = some ms ∧
      ms.view 1 = .found (.node ⟨⟨1, 2, 0⟩, [⟨b!"Name", some b!"root"⟩]⟩ [.node ⟨⟨1, 3, 2⟩, []⟩ []]) := by
    have h : (MemStore.new.run uploadedOps).map (fun ms => ms.view 1) =
        some (.found (.node ⟨⟨1, 2, 0⟩, [⟨b!"Name", some b!"root"⟩]⟩ [.node ⟨⟨1, 3, 2⟩, []⟩ []])) := by decide_cbv
    obtain ⟨ms, h1, h2⟩ := Option.map_eq_some_iff.1 h
    exact ⟨ms, h1, h2⟩
  obtain ⟨ms, h1, h2⟩ := hv
  have hn : MemStore.new.view 1 = .notFound := by decide_cbv
  have hk : UTF8Keys (.node ⟨⟨1, 2, 0⟩, [⟨b!"Name", some b!"root"⟩]⟩ [.node ⟨⟨1, 3, 2⟩, []⟩ []]) := by
    unfold UTF8Keys; decide +kernel
  have hr : TrueRoot (.node ⟨⟨1, 2, 0⟩, [⟨b!"Name", some b!"root"⟩]⟩ [.node ⟨⟨1, 3, 2⟩, []⟩ []]) := by
    unfold TrueRoot; decide +kernel
  obtain ⟨st1, out1, s1⟩ := (app_answers (sampleWeb false) namedFiles ⟨MemStore.new, none⟩
    ⟨.post, b!"/traces/upload", [], [], exportText (fun _ => (true, true)) _⟩).1
  obtain ⟨st2, out2, s2⟩ := (app_answers (sampleWeb false) namedFiles st1 ⟨.get, urlToTrace 1, [], [], []⟩).1
  have ht := exportText_isExport (fun _ => (true, true))
    (.node ⟨⟨1, 2, 0⟩, [⟨b!"Name", some b!"root"⟩]⟩ [.node ⟨⟨1, 3, 2⟩, []⟩ []])
  obtain ⟨a1, tmpl, a2, a3⟩ := upload_then_shown (namedFiles_good false) h1 (ops' := []) rfl (.inl rfl) h2 hn hk hr ht s1 s2
  refine ⟨ms, _, st1, out1, st2, out2, h1, rfl, h2, hn, hk, hr, rfl, ht, s1, s2, a1, ?_⟩
  obtain ⟨page, layout, p1, p2, p3⟩ := a2
  cases p1; cases p2; cases p3
  have hd : d3timeline sampleEnv (.node ⟨⟨1, 2, 0⟩, [⟨b!"Name", some b!"root"⟩]⟩ [.node ⟨⟨1, 3, 2⟩, []⟩ []]) = some (.ok []) := by
    decide_cbv
  simp only [traceAnswer, tracePage, sampleWeb, hd] at a3
  exact a3

/-- The root page: the state after it and what is answered. -/
theorem root_serves {τ : Type} (env : WebEnv τ) (files : TemplateFiles) (st : WebState τ) {st' : WebState τ} {out : Option WebWriter} :
    AppServes env files st (getRequest b!"/") [] st' out ↔
      st' = (renderWith env files st .root (getRequest b!"/") b!"root.html" .root).1 ∧
      PageServes (renderWith env files st .root (getRequest b!"/") b!"root.html" .root).2 env.panicText (.new []) out := by
  have hd : dispatch (getRequest b!"/").method (getRequest b!"/").path = .to .root [] := by decide
  unfold AppServes
  rw [hd]
  rfl

/-- The root page of the sample is its template followed by the layout. -/
example {st' : WebState (List Bytes)} {out : Option WebWriter}
    (h : AppServes (sampleWeb false) namedFiles ⟨MemStore.new, none⟩ (getRequest b!"/") [] st' out) :
    AnsweredBy out (.html b!"/root.html/layout.html") := by
  rw [root_serves] at h
  exact (renderWith_good (sampleWeb false) (namedFiles_good _) (Or.inl rfl) .root (getRequest b!"/") (by simp) .root
    (t := [b!"/root.html", b!"/layout.html"]) ⟨_, _, rfl, rfl, rfl⟩).answers h.2

/-! ## C133 -/

/-- **C133**, as a user would expect it: a request for a trace that is not stored is answered with the status 404. -/
def MissingTraceNotFound : Prop :=
  ∀ (τ : Type) (env : WebEnv τ) (files : TemplateFiles) (st st' : WebState τ) (t : ID) (out : Option WebWriter),
    GoodFiles env files → st.tmpls = none → st.store.view t = .notFound →
    AppServes env files st (getRequest (urlToTrace t)) [] st' out → ∃ w, out = some w ∧ w.received.1 = 404

/-- **C133** (what holds).  It is answered with the status 500 and the error of the store, and so is one for a span that is not in its trace
(with an error of its own); neither changes the store.  Missing: the status 404. -/
theorem missing_trace_partial {τ : Type} {env : WebEnv τ} {files : TemplateFiles} (hg : GoodFiles env files) {st st' : WebState τ}
    (hst : st.tmpls = none ∨ env.reload = true) {out : Option WebWriter} (t : ID) :
    (st.store.view t = .notFound → AppServes env files st (getRequest (urlToTrace t)) [] st' out →
      st'.store = st.store ∧ ∃ w, out = some w ∧
        w.received = errorResponse [] (env.errText (.page (.serve (.store .notFound))))) ∧
    (∀ tr s, st.store.view t = .found tr → tr.findSpan s = none →
      AppServes env files st (getRequest (urlToTraceSpan t s)) [] st' out →
      st'.store = st.store ∧ ∃ w, out = some w ∧ w.received = errorResponse [] (env.errText (.page (.serve .noSpan)))) := by
  constructor
  · intro hv hs
    have hl : st.store.lookup t = .error .notFound := by simp only [MemStore.lookup, hv]
    have := (visit_trace st.store.lookup t).1
    rw [hl] at this
    obtain ⟨h1, t', n, vars, -, -, w, h2, h3⟩ := trace_request_answer hg hst (r := getRequest (urlToTrace t)) rfl rfl this hs
    exact ⟨h1, w, h2, h3⟩
  · intro tr s hv hf hs
    have hl : st.store.lookup t = .ok tr := by simp only [MemStore.lookup, hv]
    have := ((visit_span st.store.lookup t s tr hl).2 hf).1
    obtain ⟨h1, t', n, vars, -, -, w, h2, h3⟩ := trace_request_answer hg hst (r := getRequest (urlToTraceSpan t s)) rfl rfl this hs
    exact ⟨h1, w, h2, h3⟩

/-- **C133** (refutation). -/
theorem missing_trace_not_found_false : ¬ MissingTraceNotFound := by
  intro H
  obtain ⟨⟨st', out, hs⟩, -⟩ := app_answers (sampleWeb true) namedFiles ⟨MemStore.new, none⟩ (getRequest (urlToTrace 1))
  obtain ⟨w, e, hw⟩ := H _ (sampleWeb true) namedFiles ⟨MemStore.new, none⟩ st' 1 out (namedFiles_good _) rfl rfl hs
  obtain ⟨-, w', e', hw'⟩ := (missing_trace_partial (namedFiles_good true) (Or.inl rfl) 1).1 rfl hs
  rw [e] at e'
  injection e' with e'
  subst e'
  rw [hw'] at hw
  exact absurd hw (by decide)

/-! ## C134 -/

/-- **C134**, as a user would expect it: the response to a request depends on the store and on the template files as they are, not on what
was requested before. -/
def ResponsesForget : Prop :=
  ∀ (τ : Type) (env : WebEnv τ) (files : TemplateFiles) (st0 st st' : WebState τ) (l : List (TemplateFiles × WebRequest)) (r : WebRequest)
    (out : Option WebWriter), st0.tmpls = none → WebRuns env st0 l st → AppServes env files st r [] st' out →
    ∃ st'', AppServes env files ⟨st.store, none⟩ r [] st'' out

/-- **C134** (what holds).  It does if `ReloadTemplates` is set, and also if the files were always the same and good, as in a program with
embedded templates.  Missing: files that were different, or could not be read, at an earlier request while `ReloadTemplates` is not set. -/
theorem responses_forget_partial {τ : Type} {env : WebEnv τ} {files : TemplateFiles} {st0 st st' : WebState τ}
    {l : List (TemplateFiles × WebRequest)} {r : WebRequest} {out : Option WebWriter} (h0 : st0.tmpls = none)
    (hr : WebRuns env st0 l st) (hs : AppServes env files st r [] st' out)
    (hc : env.reload = true ∨ (GoodFiles env files ∧ ∀ x ∈ l, x.1 = files)) :
    ∃ st'', AppServes env files ⟨st.store, none⟩ r [] st'' out := by
  have hcur : currentTemplates env files st.tmpls = currentTemplates env files none := by
    rcases hc with hre | ⟨hg, hl⟩
    · cases st.tmpls with
      | none => rfl
      | some m => simp only [currentTemplates, hre, if_true]
    · obtain ⟨m, hm, -⟩ := parseSets_good env hg
      rcases webRuns_same hm hr h0 hl with e | e
      · rw [e]
      · rw [e]
        simp only [currentTemplates, hm]
        split <;> rfl
  unfold AppServes at hs ⊢
  cases hd : dispatch r.method r.path with
  | redirect => rw [hd] at hs; exact ⟨_, rfl, hs.2⟩
  | notFound => rw [hd] at hs; exact ⟨_, rfl, hs.2⟩
  | «to» n vars =>
    rw [hd] at hs
    dsimp only at hs ⊢
    split
    · rename_i hn
      rw [if_pos hn] at hs
      exact ⟨_, rfl, hs.2⟩
    · rename_i hn
      rw [if_neg hn] at hs
      refine ⟨_, rfl, ?_⟩
      rw [← handleRoute_congr env files st.store hcur n r vars]
      exact hs.2

/-- After a request at which the files could not be read the application never shows a page again, even when they can be read. -/
theorem stale_templates : ∃ st1 out1 st2 out2,
    AppServes (sampleWeb false) noFiles ⟨MemStore.new, none⟩ (getRequest b!"/") [] st1 out1 ∧
    AppServes (sampleWeb false) namedFiles st1 (getRequest b!"/") [] st2 out2 ∧ AnsweredBy out2 (.failed b!"root.html") := by
  obtain ⟨⟨st1, out1, h1⟩, -⟩ := app_answers (sampleWeb false) noFiles ⟨MemStore.new, none⟩ (getRequest b!"/")
  obtain ⟨⟨st2, out2, h2⟩, -⟩ := app_answers (sampleWeb false) namedFiles st1 (getRequest b!"/")
  refine ⟨st1, out1, st2, out2, h1, h2, ?_⟩
  have e1 := ((root_serves _ _ _).1 h1).1
  have e2 := ((root_serves _ _ _).1 h2).2
  rw [e1] at e2
  exact PageIs.answers (p := ⟨_, .error b!"root.html"⟩) .failed e2

/-- **C134** (refutation). -/
theorem responses_forget_false : ¬ ResponsesForget := by
  intro H
  obtain ⟨st1, out1, st2, out2, h1, h2, w, e, hw⟩ := stale_templates
  have hr : WebRuns (sampleWeb false) ⟨MemStore.new, none⟩ ([] ++ [(noFiles, getRequest b!"/")]) st1 := .snoc .nil h1
  obtain ⟨st3, h3⟩ := H _ _ _ _ _ _ _ _ _ rfl hr h2
  have h4 := ((root_serves _ _ _).1 h3).2
  obtain ⟨w', e', hw'⟩ := (renderWith_good (sampleWeb false) (namedFiles_good _) (Or.inl rfl) .root (getRequest b!"/") (by simp) .root
    (t := [b!"/root.html", b!"/layout.html"]) ⟨_, _, rfl, rfl, rfl⟩).answers h4
  rw [e] at e'
  injection e' with e'
  subst e'
  rw [hw] at hw'
  have := congrArg (fun x : Int × Header × Bytes => x.1) hw'
  revert this
  decide

/-- The hypotheses of `responses_forget_partial` are met after a request. -/
example : ∃ st out, AppServes (sampleWeb true) noFiles ⟨MemStore.new, none⟩ (getRequest b!"/") [] st out ∧
    WebRuns (sampleWeb true) ⟨MemStore.new, none⟩ ([] ++ [(noFiles, getRequest b!"/")]) st ∧ (sampleWeb true).reload = true := by
  obtain ⟨⟨st1, out1, h1⟩, -⟩ := app_answers (sampleWeb true) noFiles ⟨MemStore.new, none⟩ (getRequest b!"/")
  exact ⟨st1, out1, h1, .snoc .nil h1, rfl⟩

end Appdash
