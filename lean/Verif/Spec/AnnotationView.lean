import Verif.Model.AnnotationView
import Verif.Spec.Store

/-!
# Specification vocabulary for the display of annotations
-/

namespace Appdash

/-- The keys that are not for internal use: they are not empty and do not begin with an underscore. -/
def Spec.PublicKey : Bytes → Prop
  | [] => False
  | c :: _ => c ≠ 95

instance : DecidablePred Spec.PublicKey := fun k => by
  cases k with
  | nil => unfold Spec.PublicKey; infer_instance
  | cons c s => unfold Spec.PublicKey; infer_instance

end Appdash
