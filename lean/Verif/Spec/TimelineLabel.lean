import Verif.Model.TimelineLabel

/-!
# Specification vocabulary for the labels of the timeline and the views below it
-/

namespace Appdash.Spec

/-- The label is the name, or its beginning followed by three dots. -/
def Abbreviates (label name : List Nat) : Prop := label = name ∨ ∃ k, label = name.take k ++ [46, 46, 46]

/-- The characters that HTML has escapes for: `&`, `<`, `>` and the no-break space. -/
def Escaped (c : Nat) : Prop := c = 38 ∨ c = 60 ∨ c = 62 ∨ c = 160

/-- The view is displayed. -/
def Displayed (s : ViewsShown) : TraceView → Prop
  | .data => s.data = true
  | .verbose => s.verbose = true
  | .profile => s.profile = true

end Appdash.Spec
