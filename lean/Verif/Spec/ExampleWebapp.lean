import Verif.Model.ExampleWebapp
import Verif.Spec.Demo
import Verif.Spec.RecentTrace

/-!
# Vocabulary for the example `webapp`
-/

namespace Appdash.Spec

/-- A request that the example has handled: its handler made its calls, some of which arrived and were handled by the example, too. -/
inductive WebappHandled : Handled → Prop
  | mk (s : ServedReq) (calls : List ClientCall) (children : List Handled) (next : s.env.next = webappNext)
      (route : s.env.routeName = some webappRoute)
      (made : List.Forall₂ DemoCall calls (DemoStep.gets (webappSteps s.id s.request.urlPath)))
      (arrived : ∀ h ∈ children, ∃ c ∈ calls, Delivered c.out.sentHeader h.req.header ∧ h.req.request.urlPath = c.original.urlPath)
      (handled : ∀ h ∈ children, WebappHandled h) :
      WebappHandled (.mk s calls [] children)

end Appdash.Spec
