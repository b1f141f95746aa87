import Verif.Spec.Recent
import Verif.Spec.Causal

/-! # Specification vocabulary for the traces of a program in a `RecentStore` -/

namespace Appdash.Spec

/-- No eviction is decided more than `age` after the first `Collect` call for trace `t`. -/
def Young (age : Int) (t : ID) (h : List RecentObs) : Prop :=
  ∀ h1 c id as ev h2, h = h1 ++ .call c id as ev :: h2 → id.trace = t → forTrace t (h1.filterMap called) = [] →
    ∀ c' id' as' ev', .call c' id' as' ev' ∈ RecentObs.call c id as ev :: h2 → ev' ≠ [] → c'.cutoff ≤ c.seen + age

end Appdash.Spec
