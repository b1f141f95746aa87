import Verif.Model.BaseURL

/-!
# Vocabulary for base URLs
-/

namespace Appdash.Spec

/-- How an address is written: a host that contains a colon (an IPv6 address) stands in brackets. -/
def address (host port : Bytes) : Bytes := if 58 ∈ host then b!"[" ++ host ++ b!"]:" ++ port else host ++ b!":" ++ port

/-- The host has no brackets, and the port neither brackets nor colons. -/
def GoodAddress (host port : Bytes) : Prop := 91 ∉ host ∧ 93 ∉ host ∧ 58 ∉ port ∧ 91 ∉ port ∧ 93 ∉ port

/-- The URL leads to the server that listens on the address: `localhost` stands for a server that listens on all hosts. -/
def LeadsTo (u : BaseURL) (tls : Bool) (host port : Bytes) : Prop :=
  u.scheme = (if tls then b!"https" else b!"http") ∧
    u.host = address (if host = [] then b!"localhost" else host) port

/-- What the documentation of the command says: without the option `-url`, the pages refer to the address given by `-http`. -/
def DefaultURLLeadsToServer : Prop :=
  ∀ (parse : Bytes → Option BaseURL) (tls : Bool) (host port : Bytes), GoodAddress host port → (∃ u, parse [] = some u) →
    ∃ u b, urlOrDefault parse [] (address host port) = some u ∧ appBaseURL u = some b ∧ LeadsTo b tls host port

/-- The path of an absolute URL, as a browser sends it. -/
def requestPath (u : Bytes) : Bytes := ((splitFirst 58 u).elim [] fun p => p.2.drop 2).dropWhile (· ≠ 47)

/-- How the application is made available: behind a proxy that removes `proxy` from the beginning of paths, and with a router for paths
that begin with `mount`.  Both are empty or like `/a/b`, without slash at the end. -/
structure Deployment where
  proxy : Bytes
  mount : Bytes

/-- A path like `/a/b`, or nothing. -/
def PathPrefix (p : Bytes) : Prop := (p = [] ∨ p.head? = some 47) ∧ p.getLast? ≠ some 47

/-- What the application receives if a browser requests this path. -/
def Deployment.receives (d : Deployment) (path : Bytes) : Option Bytes :=
  if d.proxy.isPrefixOf path then some (path.drop d.proxy.length) else none

/-- The scripts and styles of the pages can be loaded. -/
def StaticWorks (d : Deployment) (b : BaseURL) : Prop :=
  ∀ name : Bytes, cleanParts (splitOn 47 name) = true → (d.receives (requestPath (staticRef b name))).bind (staticFile d.mount) = some name

/-- The links to traces lead to them. -/
def LinksWork (d : Deployment) : Prop :=
  ∀ t : ID, (d.receives (traceRef d.mount t)).map (mountedDispatch d.mount) = some (.to .trace [(b!"Trace", t.toText)])

/-- "Import JSON" uploads traces. -/
def ImportWorks (d : Deployment) : Prop := (d.receives importRef).map (mountedPost d.mount) = some (.to .traceUpload [])

/-- What the documentation of `New` says: an application can be served under any path, like `https://mysite.com/appdash`, if the base URL
given to `New` says so. -/
def ServedUnderAnyPath : Prop :=
  ∀ (scheme host path : Bytes), scheme ≠ [] → 58 ∉ scheme → host ≠ [] → 47 ∉ host → PathPrefix path →
    ∃ d b, d.proxy ++ d.mount = path ∧ appBaseURL ⟨scheme, host, path⟩ = some b ∧ StaticWorks d b ∧ LinksWork d

end Appdash.Spec
