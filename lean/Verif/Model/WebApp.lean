import Verif.Model.Dashboard
import Verif.Model.Handler

/-!
# Model of the web application as a whole: from a request to the response

`traceapp/app.go` (`App.ServeHTTP` and the handlers), `traceapp/tmpl.go` (`renderTemplate`, `parseHTMLTemplates`) and
`cmd/appdash/serve_cmd.go:111-124`.  The steps of the handlers are those modelled in `Verif.Model.Pages`, `Dashboard` and
`JsonText`; here they are put together with the router, the templates and the buffered writer.

html/template is not part of /repo: what a set of files compiles to and what executing it gives are parameters.  So are the file
server for `/static/`, the texts of errors and the URL that the router redirects to.  The store is a `MemoryStore`, and one request is
served at a time.
-/

namespace Appdash

/-- What a template gets besides the `TemplateCommon` part. -/
inductive PageData where
  | root
  | trace (p : TracePage)
  | traces (ts : List Tree)
  | dashboard (dataURL : Bytes)
  /-- the items in no particular order -/
  | aggregate (items : AMap Bytes Int)

/-- traceapp/tmpl.go:36-41 `TemplateCommon`.  The base URL is the same for all requests and left to the parameters. -/
structure PageCommon where
  route : RouteName
  path : Bytes
  query : Bytes
  haveDashboard : Bool
deriving DecidableEq, Repr

/-- What a handler returns an error for. -/
inductive AppErr where
  | page (e : PageErr)
  | upload
  | aggregate (e : AggErr)
  | dashboard
  /-- A template file cannot be read or does not compile. -/
  | templates
  | templateMissing (name : Bytes)
  | execute
deriving DecidableEq, Repr

/-- What is fixed while the application runs.  `τ` is the type of compiled templates. -/
structure WebEnv (τ : Type) where
  view : ViewEnv
  flate : Flate
  nils : SpanID → Bool × Bool
  agg : Option Aggregator
  /-- `Template.Parse` of each file and `Lookup("ROOT")` -/
  compile : List Bytes → Option τ
  /-- `Template.Execute` -/
  execute : τ → PageCommon → PageData → Option Bytes
  errText : AppErr → Bytes
  panicText : Bytes
  /-- traceapp/tmpl.go:25 `ReloadTemplates` -/
  reload : Bool
  static : Bytes → WebWriter → Option WebWriter
  location : Bytes → Bytes → Bytes

/-- The template files as they are at the time of a request; `none` if a file cannot be opened and read. -/
abbrev TemplateFiles := Bytes → Option Bytes

/-- traceapp/tmpl.go:28-34 `templates`. -/
def templateSets : List (List Bytes) :=
  [[b!"root.html", b!"layout.html"], [b!"trace.html", b!"layout.html"], [b!"traces.html", b!"layout.html"],
    [b!"dashboard.html", b!"layout.html"], [b!"aggregate.html", b!"layout.html"]]

/-- traceapp/tmpl.go:98-115: one set of files, compiled.  (Go parses each file before it reads the next.) -/
def compileSet {τ : Type} (compile : List Bytes → Option τ) (files : TemplateFiles) (set : List Bytes) : Option τ :=
  match set.mapM fun name => files (47 :: name) with
  | none => none
  | some texts => compile texts

/-- traceapp/tmpl.go:83-120, the loop of `parseHTMLTemplates`: the map that is left, and whether the call returned nil. -/
def parseSets {τ : Type} (compile : List Bytes → Option τ) (files : TemplateFiles) :
    List (List Bytes) → AMap Bytes τ → AMap Bytes τ × Bool
  | [], m => (m, true)
  | set :: sets, m =>
    match compileSet compile files set with
    | none => (m, false)
    | some t => parseSets compile files sets (AMap.set m (set.headD []) t)

/-- traceapp/tmpl.go:47-51: the templates that a request uses, and whether they could be loaded. -/
def currentTemplates {τ : Type} (env : WebEnv τ) (files : TemplateFiles) : Option (AMap Bytes τ) → AMap Bytes τ × Bool
  | none => parseSets env.compile files templateSets []
  | some m => if env.reload then parseSets env.compile files templateSets [] else (m, true)

/-- traceapp/tmpl.go:43-80 `renderTemplate`, for a handler that has not written anything.  `tmpls` is the field of that name, `none` before
the first call.  The status is always 200. -/
def renderTemplate {τ : Type} (env : WebEnv τ) (files : TemplateFiles) (tmpls : Option (AMap Bytes τ)) (c : PageCommon) (name : Bytes)
    (data : PageData) : Option (AMap Bytes τ) × Page :=
  let (m, ok) := currentTemplates env files tmpls
  if ok = false then (some m, ⟨[], .error (env.errText .templates)⟩)
  else
    -- tmpl.go:53-56
    let ops : List PageOp := [.writeHeader 200, .editHeader fun h =>
      if h.find b!"content-type" = [] then h.put b!"Content-Type" b!"text/html; charset=utf-8" else h]
    match AMap.get m name with
    -- tmpl.go:57-60
    | none => (some m, ⟨ops, .error (env.errText (.templateMissing name))⟩)
    | some t =>
      -- tmpl.go:72-79
      match env.execute t c data with
      | none => (some m, ⟨ops, .error (env.errText .execute)⟩)
      | some html => (some m, ⟨ops ++ [.write html], .ok⟩)

/-- traceapp/prof.go:13-17, 103: the profile, as `json.Marshal` writes it. -/
def profileJSON (p : Profile) : JVal :=
  .obj [(b!"Name", .str p.name), (b!"URL", .str p.url), (b!"Time", .num (some p.time)), (b!"TimeChildren", .num (some p.timeChildren)),
    (b!"TimeCum", .num (some p.timeCum))]

/-- A request: method, decoded path, query, header and body. -/
structure WebRequest where
  method : Method
  path : Bytes
  query : Bytes
  header : Header
  body : Bytes

/-- The state of the application: the store and the field `tmpls`. -/
structure WebState (τ : Type) where
  store : MemStore
  tmpls : Option (AMap Bytes τ)

/-- The `TemplateCommon` part for a request (traceapp/tmpl.go:64-69). -/
def commonOf {τ : Type} (env : WebEnv τ) (n : RouteName) (r : WebRequest) : PageCommon := ⟨n, r.path, r.query, env.agg.isSome⟩

/-- A handler that ends by rendering a template. -/
def renderWith {τ : Type} (env : WebEnv τ) (files : TemplateFiles) (st : WebState τ) (n : RouteName) (r : WebRequest) (name : Bytes)
    (data : PageData) : WebState τ × Page :=
  let (m, p) := renderTemplate env files st.tmpls (commonOf env n r) name data
  ({ st with tmpls := m }, p)

/-- traceapp/app.go:109-220 `serveTrace` and traceapp/prof.go:94-111 `profile`. -/
def tracePageOf {τ : Type} (env : WebEnv τ) (files : TemplateFiles) (st : WebState τ) (n : RouteName) (r : WebRequest) (vars : Vars) :
    WebState τ × Page :=
  let (ms, v) := serveTraceRequest env.view env.flate env.nils st.store r.path r.query vars
  let st := { st with store := ms }
  match v with
  | none => (st, ⟨[], .panic env.panicText⟩)
  | some (.error e) => (st, ⟨[], .error (env.errText (.page e))⟩)
  | some (.ok (.profile ps)) => (st, ⟨[.write (JVal.print .compact 0 (.arr (ps.map profileJSON)))], .ok⟩)
  | some (.ok (.page p)) => renderWith env files st n r b!"trace.html" (.trace p)

/-- traceapp/app.go:80-94: the handler of a route; the file server is not here. -/
def handleRoute {τ : Type} (env : WebEnv τ) (files : TemplateFiles) (st : WebState τ) (n : RouteName) (r : WebRequest) (vars : Vars) :
    WebState τ × Page :=
  match n with
  -- app.go:103-107 `serveRoot`
  | .root => renderWith env files st n r b!"root.html" .root
  | .static => (st, ⟨[], .ok⟩)
  | .trace => tracePageOf env files st n r vars
  | .traceSpan => tracePageOf env files st n r vars
  | .traceProfile => tracePageOf env files st n r vars
  | .traceSpanProfile => tracePageOf env files st n r vars
  -- app.go:295-310 `serveTraceUpload`
  | .traceUpload =>
    match serveUploadBody st.store r.body with
    | (ms, .ok) => ({ st with store := ms }, ⟨[], .ok⟩)
    | (ms, .badJSON) => ({ st with store := ms }, ⟨[], .error (env.errText .upload)⟩)
    | (ms, .panic) => ({ st with store := ms }, ⟨[], .panic env.panicText⟩)
  -- app.go:222-252 `serveTraces`
  | .traces =>
    match st.store.tracesView (st.store.tracesPtr { traceIDs := showIDs r.query }) with
    | none => (st, ⟨[], .panic env.panicText⟩)
    | some ts => renderWith env files st n r b!"traces.html" (.traces ts)
  -- dashboard.go:24-43 `serveDashboard`
  | .dashboard =>
    match env.agg with
    | none => (st, ⟨[.writeHeader 404, .write b!"Dashboard is disabled."], .ok⟩)
    | some _ => renderWith env files st n r b!"dashboard.html" (.dashboard (buildURL (templateOf .dashboardData) []))
  -- dashboard.go:46-114 `serveDashboardData`
  | .dashboardData =>
    match serveDashboardData env.agg r.query with
    | .disabled => (st, ⟨[.writeHeader 404, .write b!"Dashboard is disabled."], .ok⟩)
    | .failed => (st, ⟨[], .error (env.errText .dashboard)⟩)
    | .data body => (st, ⟨[.write body], .ok⟩)
  -- app.go:254-293 `serveAggregate`
  | .aggregate =>
    match st.store.tracesView (st.store.tracesPtr {}) with
    | none => (st, ⟨[], .panic env.panicText⟩)
    | some ts =>
      match serveAggregate env.view ts r.query with
      | none => (st, ⟨[], .panic env.panicText⟩)
      | some (.error e) => (st, ⟨[], .error (env.errText (.aggregate e))⟩)
      | some (.ok items) => renderWith env files st n r b!"aggregate.html" (.aggregate items)

/-- traceapp/app.go:99-101 `App.ServeHTTP`: a request is served, the writer given being a new one whose header is `h`. -/
def AppServes {τ : Type} (env : WebEnv τ) (files : TemplateFiles) (st : WebState τ) (r : WebRequest) (h : Header) (st' : WebState τ)
    (out : Option WebWriter) : Prop :=
  match dispatch r.method r.path with
  | .redirect =>
    st' = st ∧ out = ({ (WebWriter.new h) with header := h.put b!"Location" (env.location r.path r.query) }).writeHeader 301
  | .notFound => st' = st ∧ out = httpError (.new h) b!"404 page not found" 404
  | .to n vars =>
    if n = .static then st' = st ∧ out = env.static r.path (.new h)
    else
      st' = (handleRoute env files st n r vars).1 ∧
        PageServes (handleRoute env files st n r vars).2 env.panicText (.new h) out

/-- cmd/appdash/serve_cmd.go:111-124, 213-222: a request to `appdash serve` with the option `BasicAuth`, which `authConfig` has turned into
`want`. -/
def ServerServes {τ : Type} (env : WebEnv τ) (want : Option Bytes) (files : TemplateFiles) (st : WebState τ) (r : WebRequest)
    (st' : WebState τ) (out : Option WebWriter) : Prop :=
  match want with
  | none => AppServes env files st r [] st' out
  | some want =>
    -- the writer that the wrapped handler gets is the one given to `ServeHTTP`
    if (authServe want (fun w => some w) r.header (.new [])).2 = true then AppServes env files st r [] st' out
    else st' = st ∧ out = (authServe want (fun w => some w) r.header (.new [])).1

/-- A process that serves requests one after another; the template files may change between them. -/
inductive WebRuns {τ : Type} (env : WebEnv τ) : WebState τ → List (TemplateFiles × WebRequest) → WebState τ → Prop where
  | nil {st : WebState τ} : WebRuns env st [] st
  | snoc {st st' st'' : WebState τ} {l : List (TemplateFiles × WebRequest)} {files : TemplateFiles} {r : WebRequest} {h : Header}
      {out : Option WebWriter} : WebRuns env st l st' → AppServes env files st' r h st'' out → WebRuns env st (l ++ [(files, r)]) st''

end Appdash
