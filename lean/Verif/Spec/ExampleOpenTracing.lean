import Verif.Model.ExampleOpenTracing
import Verif.Spec.OpenTracingShown
import Verif.Spec.RecentTrace

/-!
# Vocabulary for the example `webapp-opentracing`
-/

namespace Appdash.Spec

/-- The requests `r` with these headers are requests to the endpoint that carry the context of the span `home`: `Extract` finds in them what
`Inject` put there. -/
def CarriesContext (extract : Header → Option OTContext) (home : RawSpan) (h : Header) : Prop :=
  ∃ ctx, extract h = some ctx ∧ ctx.trace = home.trace ∧ ctx.span = home.span ∧ ctx.sampled = home.sampled

/-- `kid` is the span of a request to the endpoint that carried the context of the span `home`. -/
def EndpointOf (extract : Header → Option OTContext) (home kid : RawSpan) : Prop :=
  ∃ span start duration r h, otEndpointSpan extract span start duration r h = some kid ∧ CarriesContext extract home h ∧
    r.urlPath = b!"/endpoint"

/-- The errors of the calls that failed, in order, with the times at which they were logged. -/
def failures : List OTOutcome → List (GoTime × Bytes)
  | [] => []
  | .failed t e :: os => (t, e) :: failures os
  | .answered _ :: os => failures os

/-- The status of the last response. -/
def lastStatus : List OTOutcome → Option Bytes
  | [] => none
  | .failed _ _ :: os => lastStatus os
  | .answered s :: os => (lastStatus os).or (some s)

end Appdash.Spec
