import Verif.Model.Demo

/-!
# Model of the example `webapp` (examples/cmd/webapp/main.go)

The example serves two pages with the middleware of `Verif.Model.Http`, calls itself through a `Transport`, and collects in a `RecentStore`
of its own process.  Pauses and logging are left out, and so is the middleware of Negroni (examples/cmd/webapp/main.go:88): it writes a log,
recovers from panics and serves the files of a directory `public`, which is assumed not to exist.
-/

namespace Appdash

/-- examples/cmd/webapp/main.go:36-39: `MinEvictAge`, 20 seconds in nanoseconds. -/
def webappAge : Int := 20000000000

/-- examples/cmd/webapp/main.go:48-61: the URL of the web application. -/
def webappTraces : BaseURL := ⟨b!"http", b!"localhost:8700", []⟩

/-- examples/cmd/webapp/main.go:91, 112: the URL of the example itself. -/
def webappBase : BaseURL := ⟨b!"http", b!"localhost:8699", []⟩

/-- examples/cmd/webapp/main.go:121-122: the page that `Home` writes. -/
def webappPage (span : SpanID) : List Bytes :=
  [b!"<p>Three API requests have been made!</p>",
    b!"<p><a href=\"http://localhost:8700/traces/" ++ span.trace.toText ++ b!"\" target=\"_\">View the trace (ID:" ++ span.trace.toText ++
      b!")</a></p>"]

/-- examples/cmd/webapp/main.go:95-123 `Home` and 131-134 `Endpoint`, and what the router does for other paths
(examples/cmd/webapp/main.go:83-85): it answers 404.  (Paths that are not
clean, such as `//`, it redirects; that is left out.) -/
def webappSteps (span : SpanID) (path : Bytes) : List DemoStep :=
  if path = b!"/" then
    [.get (webappBase.resolve b!"/endpoint"), .get (webappBase.resolve b!"/endpoint"), .get (webappBase.resolve b!"/endpoint")] ++
      (webappPage span).map .write
  else if path = b!"/endpoint" then [.write b!"Slept for 200ms!"]
  else [.write b!"404 page not found\n"]

/-- examples/cmd/webapp/main.go:78-80, 89-90: the middleware's next handler. -/
def webappNext (r : Request) (h : Header) (span : SpanID) : Option HandlerRun :=
  if r.urlPath = b!"/" ∨ r.urlPath = b!"/endpoint" then
    some { ops := DemoStep.ops (webappSteps span r.urlPath), header := [], request := r, requestHeader := h }
  else
    some { ops := .writeHeader 404 :: DemoStep.ops (webappSteps span r.urlPath),
           header := [(b!"Content-Type", [b!"text/plain; charset=utf-8"]), (b!"X-Content-Type-Options", [b!"nosniff"])],
           request := r, requestHeader := h }

/-- examples/cmd/webapp/main.go:79: `RouteName`. -/
def webappRoute (r : Request) (_ : Header) : Bytes := r.urlPath

end Appdash
