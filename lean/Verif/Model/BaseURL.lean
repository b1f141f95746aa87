import Verif.Model.Router

/-!
# Model of the base URL: `ServeCmd.urlOrDefault` (cmd/appdash/serve_cmd.go:176-201), `traceapp.New` (traceapp/app.go:54-97) and the
references on pages that are built from it

A URL is its scheme, host and path; the other parts of `url.URL` are empty in what is modelled here.  Escaping is not modelled: hosts
and paths are taken to consist of characters that need none.
-/

namespace Appdash

/-- Before and after the last `c`. -/
def splitLast (c : UInt8) : Bytes → Option (Bytes × Bytes)
  | [] => none
  | x :: s =>
    match splitLast c s with
    | some (a, b) => some (x :: a, b)
    | none => if x = c then some ([], s) else none

/-- Before and after the first `c`. -/
def splitFirst (c : UInt8) : Bytes → Option (Bytes × Bytes)
  | [] => none
  | x :: s =>
    if x = c then some ([], s)
    else
      match splitFirst c s with
      | some (a, b) => some (x :: a, b)
      | none => none

/-- `net.SplitHostPort` of Go's standard library (called from cmd/appdash/serve_cmd.go:189); `none` is an error. -/
def splitHostPort (s : Bytes) : Option (Bytes × Bytes) :=
  match splitLast 58 s with
  | none => none
  | some (before, port) =>
    if s.head? = some 91 then
      match splitFirst 93 s with
      | none => none
      | some (h, rest) => if h ++ [93] = before ∧ 91 ∉ s.tail ∧ 93 ∉ rest then some (h.tail, port) else none
    else if 58 ∈ before ∨ 91 ∈ s ∨ 93 ∈ s then none
    else some (before, port)

/-- A URL. -/
structure BaseURL where
  scheme : Bytes
  host : Bytes
  path : Bytes
deriving DecidableEq, Repr

/-- cmd/appdash/serve_cmd.go:178-201 `urlOrDefault`; `parse` is `url.Parse`, `none` is an error. -/
def urlOrDefault (parse : Bytes → Option BaseURL) (url httpAddr : Bytes) : Option BaseURL :=
  match parse url with
  | none => none
  | some u =>
    if url ≠ [] then some u
    else
      match splitHostPort httpAddr with
      | none => none
      | some (host, port) =>
        let host := if host = [] then b!"localhost" else host
        some { scheme := b!"http", host := host ++ b!":" ++ port, path := [] }

/-- traceapp/app.go:65-73: the base URL that `New` uses; `none` is an error. -/
def appBaseURL (u : BaseURL) : Option BaseURL :=
  if u.scheme = [] ∨ u.host = [] then none
  else some (if u.path = [] then { u with path := b!"/" } else u)

/-- `url.URL.String` (called by the templates for `{{.BaseURL}}`). -/
def BaseURL.text (u : BaseURL) : Bytes := u.scheme ++ b!"://" ++ u.host ++ u.path

/-- What pages refer to as `{{.BaseURL}}static/name` (traceapp/tmpl/data/layout.html:89-91, dashboard.html:5-6, trace.html:5-6). -/
def staticRef (u : BaseURL) (name : Bytes) : Bytes := u.text ++ b!"static/" ++ name

/-- What the links of pages refer to (traceapp/router.go:59-61 `URLToTrace`) if the router given to `New` is a subrouter for paths that
begin with `mount` (traceapp/router.go:31-34). -/
def traceRef (mount : Bytes) (t : ID) : Bytes := mount ++ urlToTrace t

/-- What the application does with a request if its router is such a subrouter. -/
def mountedDispatch (mount path : Bytes) : Routed :=
  if mount.isPrefixOf path then dispatch .get (path.drop mount.length) else .notFound

/-- traceapp/tmpl/data/traces.html:107: where "Import JSON" posts its data, whatever the base URL is. -/
def importRef : Bytes := b!"/traces/upload"

/-- What the application does with a POST request if its router is a subrouter. -/
def mountedPost (mount path : Bytes) : Routed :=
  if mount.isPrefixOf path then dispatch .post (path.drop mount.length) else .notFound

/-- traceapp/app.go:94: the file that is served for a request, if any.  `http.StripPrefix("/static/", …)` answers 404 if the request's path
does not begin with `/static/`. -/
def staticFile (mount path : Bytes) : Option Bytes :=
  match mountedDispatch mount path with
  | .to .static _ => if (b!"/static/" : Bytes).isPrefixOf path then some (path.drop 8) else none
  | _ => none

end Appdash
