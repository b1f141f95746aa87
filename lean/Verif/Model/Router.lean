import Verif.Model.Trace
import Verif.Model.Multi

/-!
# Model of `traceapp/router.go` and of how `App.serveTrace` finds the trace to show

The router is the package `github.com/gorilla/mux`, which is not part of /repo; the definitions here model its documented
behaviour for the routes of `NewRouter`: the routes are tried in the order of registration, a variable `{X}` matches one or more
characters other than `/`, and a path that is not clean is redirected.  Modelled is the router made by `NewRouter(nil)`; paths
are the decoded paths of request URLs.
-/

namespace Appdash

/-- A part of a path template between two slashes. -/
inductive Seg where
  | lit (s : Bytes)
  | var (name : Bytes)
deriving DecidableEq, Repr

/-- The path matcher of a route: `Path(template)` or `PathPrefix(text)`. -/
inductive Pattern where
  | path (segs : List Seg)
  | pre (text : Bytes)
deriving DecidableEq, Repr

/-- traceapp/router.go:12-24: the route names. -/
inductive RouteName where
  | root | static | trace | traceSpan | traceProfile | traceSpanProfile | traceUpload | traces | dashboard | dashboardData
  | aggregate
deriving DecidableEq, Repr

/-- The request methods that matter. -/
inductive Method where
  | get | post | other (name : Bytes)
deriving DecidableEq, Repr

/-- A route of the router. -/
structure Route where
  name : RouteName
  pattern : Pattern
  method : Method
deriving DecidableEq, Repr

/-- traceapp/router.go:35-45: the routes, in the order of registration. -/
def routes : List Route :=
  [⟨.root, .path [.lit []], .get⟩,
    ⟨.static, .pre b!"/static/", .get⟩,
    ⟨.trace, .path [.lit b!"traces", .var b!"Trace"], .get⟩,
    ⟨.traceProfile, .path [.lit b!"traces", .var b!"Trace", .lit b!"profile"], .get⟩,
    ⟨.traceSpanProfile, .path [.lit b!"traces", .var b!"Trace", .var b!"Span", .lit b!"profile"], .get⟩,
    ⟨.traceUpload, .path [.lit b!"traces", .lit b!"upload"], .post⟩,
    ⟨.traceSpan, .path [.lit b!"traces", .var b!"Trace", .var b!"Span"], .get⟩,
    ⟨.traces, .path [.lit b!"traces"], .get⟩,
    ⟨.dashboard, .path [.lit b!"dashboard"], .get⟩,
    ⟨.dashboardData, .path [.lit b!"dashboard", .lit b!"data"], .get⟩,
    ⟨.aggregate, .path [.lit b!"aggregate"], .get⟩]

/-- The route variables of a request (`mux.Vars`, traceapp/app.go:110). -/
abbrev Vars := List (Bytes × Bytes)

/-- Match the parts of a path against a template. -/
def matchSegs : List Seg → List Bytes → Option Vars
  | [], [] => some []
  | .lit s :: segs, p :: ps => if p = s then matchSegs segs ps else none
  | .var x :: segs, p :: ps =>
    if p = [] then none
    else
      match matchSegs segs ps with
      | none => none
      | some vars => some ((x, p) :: vars)
  | _, _ => none

/-- The parts of an absolute path between its slashes; `none` if it does not begin with a slash. -/
def pathParts : Bytes → Option (List Bytes)
  | [] => none
  | c :: s => if c = 47 then some (splitOn 47 s) else none

/-- Match a path against a pattern. -/
def Pattern.matches : Pattern → Bytes → Option Vars
  | .path segs, p =>
    match pathParts p with
    | none => none
    | some ps => matchSegs segs ps
  | .pre t, p => if t.isPrefixOf p then some [] else none

/-- The parts of a clean path: none is empty, `.` or `..`, except that the last may be empty. -/
def cleanParts : List Bytes → Bool
  | [] => true
  | [p] => p != b!"." && p != b!".."
  | p :: ps => p != [] && p != b!"." && p != b!".." && cleanParts ps

/-- What the router does with a request. -/
inductive Routed where
  | redirect
  | notFound
  | to (route : RouteName) (vars : Vars)
deriving DecidableEq, Repr

/-- The search for a route. -/
def findRoute (m : Method) (p : Bytes) : List Route → Routed
  | [] => .notFound
  | r :: rs =>
    match r.pattern.matches p with
    | none => findRoute m p rs
    | some vars => if m = r.method then .to r.name vars else findRoute m p rs

/-- traceapp/app.go:99-101 `App.ServeHTTP`: the router's `ServeHTTP`.  A path that matches a route only with another method
counts as not found (some versions of mux answer 405 instead of 404). -/
def dispatch (m : Method) (p : Bytes) : Routed :=
  match pathParts p with
  | none => .redirect
  | some ps => if cleanParts ps then findRoute m p routes else .redirect

/-- The template of a named route (`r.r.Get(name)` in traceapp/router.go:60-76). -/
def templateOf (n : RouteName) : List Seg :=
  match routes.find? fun r => r.name = n with
  | some ⟨_, .path segs, _⟩ => segs
  | _ => []

/-- `Route.URL(pairs...)` (called from traceapp/router.go:60-76): the template with the variables filled in.  A hexadecimal ID
always matches the pattern of a variable and needs no escaping, so the call succeeds. -/
def buildURL : List Seg → Vars → Bytes
  | [], _ => []
  | .lit s :: segs, vars => 47 :: s ++ buildURL segs vars
  | .var x :: segs, vars => 47 :: (AMap.get vars x).getD [] ++ buildURL segs vars

/-- traceapp/router.go:59-61 `URLToTrace`. -/
def urlToTrace (t : ID) : Bytes := buildURL (templateOf .trace) [(b!"Trace", t.toText)]

/-- traceapp/router.go:64-66 `URLToTraceSpan`. -/
def urlToTraceSpan (t s : ID) : Bytes := buildURL (templateOf .traceSpan) [(b!"Trace", t.toText), (b!"Span", s.toText)]

/-- traceapp/router.go:69-71 `URLToTraceProfile`. -/
def urlToTraceProfile (t : ID) : Bytes := buildURL (templateOf .traceProfile) [(b!"Trace", t.toText)]

/-- traceapp/router.go:75-77 `URLToTraceSpanProfile`. -/
def urlToTraceSpanProfile (t s : ID) : Bytes :=
  buildURL (templateOf .traceSpanProfile) [(b!"Trace", t.toText), (b!"Span", s.toText)]

/-- The URL of the page of a span (traceapp/prof.go:31-42, traceapp/vis.go:60-73). -/
def spanURL (s : SpanID) : Bytes := if s.parent = 0 then urlToTrace s.trace else urlToTraceSpan s.trace s.span

/-- The URL of the profile of a span (traceapp/app.go:172-177). -/
def spanProfileURL (s : SpanID) : Bytes :=
  if s.parent = 0 then urlToTraceProfile s.trace else urlToTraceSpanProfile s.trace s.span

/-- traceapp/app.go:82-85: the routes that `serveTrace` handles. -/
def servedByTrace (n : RouteName) : Bool :=
  n = .trace || n = .traceSpan || n = .traceProfile || n = .traceSpanProfile

/-- The errors of `serveTrace` before it renders anything. -/
inductive ServeErr where
  | badID (e : NumError)
  | store (e : StoreErr)
  | noSpan
deriving DecidableEq, Repr

/-- `path.Base(p)` (called from traceapp/app.go:154) for an absolute path: the last part that is not empty. -/
def pathBase (p : Bytes) : Bytes := ((splitOn 47 p).filter (· ≠ [])).getLast?.getD b!"/"

/-- traceapp/app.go:128-156: the part of `serveTrace` that selects what to show, given `Store.Trace`.  The result is the (sub-)trace
and whether its JSON profile is shown instead of the page.  A missing variable is the empty string, as in Go. -/
def serveTrace (lookup : ID → Except StoreErr Tree) (path : Bytes) (vars : Vars) : Except ServeErr (Tree × Bool) :=
  match parseID ((AMap.get vars b!"Trace").getD []) with
  | .error e => .error (.badID e)
  | .ok traceID =>
    match lookup traceID with
    | .error e => .error (.store e)
    | .ok trace =>
      let spanStr := (AMap.get vars b!"Span").getD []
      if spanStr ≠ [] then
        match parseID spanStr with
        | .error e => .error (.badID e)
        | .ok spanID =>
          match trace.findSpan spanID with
          | none => .error .noSpan
          | some sub => .ok (sub, pathBase path == b!"profile")
      else .ok (trace, pathBase path == b!"profile")

end Appdash
