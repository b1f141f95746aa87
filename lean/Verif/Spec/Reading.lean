import Verif.Spec.Store

/-!
# Specification of traces that are read while spans are collected
-/

namespace Appdash.Spec

/-- Trees of the same spans in the same places, where the annotations of a span in the second list of trees begin with those in the first
one, and in the third with those in the second. -/
inductive Between : List Tree → List Tree → List Tree → Prop
  | nil : Between [] [] []
  | cons {s s' s'' : Span} {ts ts' ts'' us us' us'' : List Tree} : s'.id = s.id → s''.id = s.id →
      s.annotations <+: s'.annotations → s'.annotations <+: s''.annotations → Between ts ts' ts'' → Between us us' us'' →
      Between (.node s ts :: us) (.node s' ts' :: us') (.node s'' ts'' :: us'')

/-- The trace is not deleted by the calls. -/
def Keeps (t : ID) (ops : List StoreOp) : Prop := ∀ ids, StoreOp.delete ids ∈ ops → t ∉ ids

end Appdash.Spec
