import Verif.Model.BaseURL
import Verif.Model.Http

/-!
# Model of the demo command: `DemoCmd.Execute` and `demoApp.ServeHTTP` (cmd/appdash/example_app.go)

The demo serves its pages with the middleware of `Verif.Model.Http` and calls itself through a `Transport`.  Pauses are left out.  The
debugging pages that importing `net/http/pprof` adds under `/debug/pprof/` (cmd/appdash/appdash.go:54) are left out too.
-/

namespace Appdash

/-- cmd/appdash/example_app.go:60-61 and 82-83: the URL that the demo prints and uses for a server that listens on `addr`; `parse` is
`url.Parse`, `none` is an error. -/
def demoURL (parse : Bytes → Option BaseURL) (addr : Bytes) : Option BaseURL := parse (b!"http://localhost" ++ addr)

/-- `u.ResolveReference(&url.URL{Path: path})` for a path that begins with a slash and has no dots as elements
(cmd/appdash/example_app.go:128-136, 156). -/
def BaseURL.resolve (u : BaseURL) (path : Bytes) : BaseURL := { u with path := path }

/-- What the handler of the demo does: it writes to the response and makes GET requests. -/
inductive DemoStep where
  | write (b : Bytes)
  | get (u : BaseURL)
deriving DecidableEq, Repr

/-- cmd/appdash/example_app.go:156-157: the link at the end of the page. -/
def demoLink (app : BaseURL) (span : SpanID) : Bytes :=
  b!"<br><br><hr><a href=\"" ++ (app.resolve (b!"/traces/" ++ span.trace.toText)).text ++
    b!"\">View request trace on appdash</a> (trace ID is " ++ span.trace.toText ++ b!")"

/-- cmd/appdash/example_app.go:117-121: the text of the first page. -/
def demoHome : Bytes :=
  b!"<h1>Appdash demo</h1>\n<p>Welcome! Click some links and then view the traces for each HTTP request by following the link at the bottom of the page.\n<ul>\n<li><a href=\"/api-calls\">Visit a page that issues some API calls</a></li>\n</ul>"

/-- cmd/appdash/example_app.go:140: the text of the page that makes calls. -/
def demoCallsPage : Bytes :=
  b!"<a href=\"/\">Home</a><br><br><p>I just made 3 API calls. Check the trace below to see them!</p>"

/-- cmd/appdash/example_app.go:112-158 `ServeHTTP`: what the handler does for a path, given its own URL, that of the web application, and
the span of the request (`httptrace.SpanID`). -/
def demoSteps (base app : BaseURL) (span : SpanID) (path : Bytes) : List DemoStep :=
  if path = b!"/" then
    [.write demoHome,
      .write (demoLink app span)]
  else if path = b!"/api-calls" then
    [.get (base.resolve b!"/endpoint-A"), .get (base.resolve b!"/endpoint-B"), .get (base.resolve b!"/endpoint-C"),
      .write demoCallsPage,
      .write (demoLink app span)]
  else if path = b!"/endpoint-A" then [.write b!"performed an operation!"]
  else if path = b!"/endpoint-B" then [.write b!"performed another operation!"]
  else if path = b!"/endpoint-C" then [.write b!"performed yet another operation!"]
  else [.write (demoLink app span)]

/-- What is written. -/
def DemoStep.ops : List DemoStep → List WriterOp
  | [] => []
  | .write b :: s => .write b :: ops s
  | .get _ :: s => ops s

/-- What is requested. -/
def DemoStep.gets : List DemoStep → List BaseURL
  | [] => []
  | .write _ :: s => gets s
  | .get u :: s => u :: gets s

/-- cmd/appdash/example_app.go:93-98: the middleware's next handler; it leaves the request and the header of the response alone. -/
def demoNext (base app : BaseURL) (r : Request) (h : Header) (span : SpanID) : Option HandlerRun :=
  some { ops := DemoStep.ops (demoSteps base app span r.urlPath), header := [], request := r, requestHeader := h }

/-- cmd/appdash/example_app.go:94-96: the configuration of the middleware. -/
def demoRoute (r : Request) (_ : Header) : Bytes := r.urlPath

/-- The request that `http.Client.Get` makes for a URL; `header` is a pointer to its header, which is empty. -/
def demoGet (u : BaseURL) (header : Nat) : Request :=
  { method := b!"GET", uri := u.path, urlHost := u.host, urlPath := u.path, proto := b!"HTTP/1.1", host := u.host, remoteAddr := [],
    contentLength := 0, header := header, trailer := [] }

end Appdash
