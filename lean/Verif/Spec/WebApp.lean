import Verif.Model.WebApp
import Verif.Spec.Handler

/-! # Specification vocabulary for the responses of the web application -/

namespace Appdash.Spec

/-- What the web application answers to a request. -/
inductive Answer where
  /-- an HTML page -/
  | html (body : Bytes)
  /-- JSON, whose type is left to the server to guess -/
  | data (body : Bytes)
  /-- an upload was stored -/
  | stored
  | redirect (url : Bytes)
  | notFound
  | disabled
  /-- any other failure -/
  | failed (msg : Bytes)

/-- A header with the length of the body, if there is one. -/
def withLength (body : Bytes) (h : Header) : Header := if body = [] then h else h.put b!"Content-Length" (itoa body.length)

/-- Status, header and body of an answer. -/
def Answer.response : Answer → Int × Header × Bytes
  | .html body => (200, withLength body [(b!"Content-Type", [b!"text/html; charset=utf-8"])], body)
  | .data body => (200, withLength body [], body)
  | .stored => (200, [], [])
  | .redirect url => (301, [(b!"Location", [url])], [])
  | .notFound => (404, [(b!"Content-Type", [b!"text/plain; charset=utf-8"]), (b!"X-Content-Type-Options", [b!"nosniff"])],
      b!"404 page not found\n")
  | .disabled => (404, [(b!"Content-Length", [b!"22"])], b!"Dashboard is disabled.")
  | .failed msg => errorResponse [] msg

/-- The response `out` is this answer. -/
def AnsweredBy (out : Option WebWriter) (a : Answer) : Prop := ∃ w, out = some w ∧ w.received = a.response

/-- `t` is what the template file of this name and the layout are compiled to. -/
def Compiled {τ : Type} (env : WebEnv τ) (files : TemplateFiles) (name : Bytes) (t : τ) : Prop :=
  ∃ page layout, files (b!"/" ++ name) = some page ∧ files b!"/layout.html" = some layout ∧ env.compile [page, layout] = some t

/-- All template files can be read and compiled. -/
def GoodFiles {τ : Type} (env : WebEnv τ) (files : TemplateFiles) : Prop :=
  ∀ name ∈ [b!"root.html", b!"trace.html", b!"traces.html", b!"dashboard.html", b!"aggregate.html"], ∃ t, Compiled env files name t

/-- What every page gets: the name of the route, path and query of the request, and whether there is a dashboard. -/
def common {τ : Type} (env : WebEnv τ) (n : RouteName) (r : WebRequest) : PageCommon where
  route := n
  path := r.path
  query := r.query
  haveDashboard := match env.agg with
    | some _ => true
    | none => false

/-- The members of the JSON object for one line of a profile. -/
def profileMembers (p : Profile) : List (Bytes × JVal) :=
  [(b!"Name", .str p.name), (b!"URL", .str p.url), (b!"Time", .num (some p.time)), (b!"TimeChildren", .num (some p.timeChildren)),
    (b!"TimeCum", .num (some p.timeCum))]

end Appdash.Spec
