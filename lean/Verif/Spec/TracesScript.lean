import Verif.Model.TracesScript

/-!
# Specification vocabulary for the menu "Traces"
-/

namespace Appdash.Spec

/-- The box is ticked after the clicks: all are at first; "Toggle Selection" unticks all, the next time ticks all, and so on; a click on
the box changes it. -/
def tickedAfter (clicks : List TracesClick) (i : Nat) : Bool :=
  (clicks.count .toggle + (clicks.reverse.takeWhile fun c => c ≠ .toggle).count (.box i)) % 2 = 0

/-- The traces of the page whose boxes are ticked after the clicks. -/
def selectedTraces (trs : List Tree) (clicks : List TracesClick) : List Tree :=
  (trs.zipIdx.filter fun t => tickedAfter clicks t.2).map Prod.fst

end Appdash.Spec
