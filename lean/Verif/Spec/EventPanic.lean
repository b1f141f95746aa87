import Verif.Spec.EventRich

/-!
# Specification of the event types that annotations can make panic
-/

namespace Appdash

/-- The name of a field: an identifier, which has no byte up to the full stop, and no colon. -/
def FieldName (n : Bytes) : Prop := n ≠ [] ∧ ∀ b ∈ n, 46 < b ∧ b ≠ 58

/-- The types of the fields of usual events: scalars, types defined from scalars, pointers to scalars, interfaces, maps of strings to
scalars, slices and arrays. -/
inductive UsualField : RType → Prop where
  | scalar (defined : Bool) (s : ScalarTy) : UsualField (.scalar defined s)
  | pointer (s : ScalarTy) : UsualField (.ptr (.scalar false s))
  | iface : UsualField .iface
  | map (s : ScalarTy) : UsualField (.map true (.scalar false s))
  | slice (e : RType) : UsualField (.slice e)
  | array (n : Nat) (e : RType) : UsualField (.array n e)

/-- Defined scalars, interfaces, slices and arrays. -/
def Exposed : RType → Prop
  | .scalar defined _ => defined = true
  | .iface => True
  | .slice _ => True
  | .array _ _ => True
  | _ => False

end Appdash
