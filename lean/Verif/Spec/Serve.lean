import Verif.Model.Serve
import Verif.Spec.Recent
import Verif.Spec.Persist

/-! # Specification vocabulary for `appdash serve` -/

namespace Appdash.Spec

/-- What was observed of the `RecentStore`s. -/
def recentPart (h : List ServeObs) : List RecentObs :=
  h.filterMap fun
    | .recent o => some o
    | _ => none

/-- No call overlaps another one or an eviction: every `Collect` call is passed on at once, and what it evicts is then deleted at
once. -/
def Calm (h : List ServeObs) : Prop :=
  ∀ h1 c id as ev h2, h = h1 ++ .recent (.call c id as ev) :: h2 →
    ∃ h3, h2 = .recent (.stored id as) :: h3 ∧ (ev ≠ [] → ∃ h4, h3 = .recent (.deleted ev) :: h4)

/-- A span of trace `t` was collected at time `at_` or later. -/
def SeenFrom (t : ID) (at_ : Int) (h : List ServeObs) : Prop :=
  ∃ c id as ev, .recent (.call c id as ev) ∈ h ∧ id.trace = t ∧ at_ ≤ c.seen

end Appdash.Spec
