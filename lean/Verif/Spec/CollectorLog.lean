import Verif.Model.CollectorLog
import Verif.Spec.AnnotationsText

/-! # Specification for C165 -/

namespace Appdash.Spec

/-- The same span and the same annotations; nil and empty values are not told apart. -/
def ReceivedAlike (a b : Received) : Prop := a.id = b.id ∧ List.Forall₂ ShownAlike a.anns b.anns

end Appdash.Spec
