import Verif.Model.TimelinePage
import Verif.Spec.TimelineScript
import Verif.Spec.TimelineSort
import Verif.Spec.Store

/-!
# Specification vocabulary for the timeline with its menus
-/

namespace Appdash.Spec

/-- The item without its flag. -/
def bare (it : TimelineItem) : TimelineItem := { it with visible := false }

/-- The same items, in any order and with any flags. -/
def SameItems (l l' : List TimelineItem) : Prop := (l.map bare).Perm (l'.map bare)

/-- The item of a span below `q` in the trace. -/
def OfBelow (tr : Tree) (q : Span) (it : TimelineItem) : Prop := ∃ s, Below tr q s ∧ it.spanID = s.id.span.toText

open Classical in
/-- The items of the spans below `q` with new flags, all others as they are. -/
noncomputable def flagBelow (tr : Tree) (q : Span) (mark : TimelineItem → Bool) (l : List TimelineItem) : List TimelineItem :=
  l.map fun it => if OfBelow tr q it then { it with visible := mark it } else it

/-- No right click on the timeline. -/
def NoRightClick (acts : List TimelineAct) : Prop := ∀ i j, TimelineAct.rightClick i j ∉ acts

/-- A trace, or a part of one, on which the menu works (see `menu_exact_partial`): no span has ID zero, the declared parent of the root is not in the trace, and
the declared parents of all other spans are. -/
structure Ordinary (tr : Tree) : Prop where
  zero : ∀ s ∈ tr.spans, s.id.span ≠ 0
  root : ∀ s ∈ tr.spans, s.id.span ≠ tr.span.id.parent
  parents : ∀ s ∈ tr.spans, s ≠ tr.span → ∃ p ∈ tr.spans, p.id.span = s.id.parent

/-- The items of the timeline of a stored trace, or of a part of it (on the page of a span), which is ordinary. -/
structure OnTrace (tr : Tree) (env : ViewEnv) (items : List TimelineItem) : Prop where
  stored : ∃ (ops : List StoreOp) (ms : MemStore) (t : ID) (whole : Tree), MemStore.new.run ops = some ms ∧ ms.view t = .found whole ∧
    Subtree tr whole
  ordinary : Ordinary tr
  items : d3timeline env tr = some (.ok items)

end Appdash.Spec
