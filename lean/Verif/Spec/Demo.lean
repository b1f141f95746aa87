import Verif.Model.Demo
import Verif.Spec.BaseURL
import Verif.Spec.Services

/-!
# Vocabulary for the demo
-/

namespace Appdash.Spec

/-- A host name or an IPv4 address, or nothing, and a port number. -/
def PlainOption (host port : Bytes) : Prop :=
  (∀ c ∈ host, (48 ≤ c ∧ c ≤ 57) ∨ (65 ≤ c ∧ c ≤ 90) ∨ (97 ≤ c ∧ c ≤ 122) ∨ c = 45 ∨ c = 46) ∧ port ≠ [] ∧ ∀ c ∈ port, 48 ≤ c ∧ c ≤ 57

/-- What is assumed of `url.Parse`: it reads URLs that consist of `http`, a plain address and nothing else. -/
def ParsesPlain (parse : Bytes → Option BaseURL) : Prop :=
  ∀ host port, PlainOption host port → parse (b!"http://" ++ host ++ b!":" ++ port) = some ⟨b!"http", host ++ b!":" ++ port, []⟩

/-- What one expects of the options `-appdash-http` and `-demo-http`: the URL that the demo prints and uses leads to the server. -/
def DemoURLsLead : Prop :=
  ∀ parse, ParsesPlain parse → ∀ host port, PlainOption host port →
    ∃ u, demoURL parse (host ++ b!":" ++ port) = some u ∧ LeadsTo u false host port

/-- A call of the demo's handler: a GET request to the URL, without headers of its own, through a `Transport` that sets names. -/
structure DemoCall (c : ClientCall) (u : BaseURL) : Prop where
  request : c.original = demoGet u c.original.header
  header : c.original.headerIn c.heap = []
  named : c.env.setName = true

/-- A request that the demo has handled: all calls of the handler arrived and were handled by the demo, too. -/
inductive DemoHandled (base app : BaseURL) : Handled → Prop
  | mk (s : ServedReq) (calls : List ClientCall) (children : List Handled) (next : s.env.next = demoNext base app)
      (route : s.env.routeName = some demoRoute)
      (made : List.Forall₂ DemoCall calls (DemoStep.gets (demoSteps base app s.id s.request.urlPath)))
      (arrived : List.Forall₂ (fun c h => Delivered c.out.sentHeader h.req.header ∧ h.req.request.urlPath = c.original.urlPath) calls children)
      (handled : ∀ h ∈ children, DemoHandled base app h) :
      DemoHandled base app (.mk s calls [] children)

/-- The span has this name on the pages of the application, and nothing is below it. -/
def Leaf (name : Bytes) (t : Tree) : Prop := annotationsName t.span.annotations = name ∧ t.sub = []

end Appdash.Spec
