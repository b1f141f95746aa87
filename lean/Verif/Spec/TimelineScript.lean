import Verif.Model.Views
import Verif.Spec.Views

/-!
# Specification vocabulary: being below a span
-/

namespace Appdash

namespace Spec

/-- In the tree, the second span is below the first: a child, a child of a child, and so on. -/
inductive Below (tr : Tree) (a : Span) : Span → Prop
  | child {c : Span} : (a, c) ∈ tr.edges → Below tr a c
  | deeper {p c : Span} : Below tr a p → (p, c) ∈ tr.edges → Below tr a c

/-- Following the parent links of the items leads from item `i` to an item with parent `p`. -/
inductive Under (data : List TimelineItem) (p : Bytes) : Nat → Prop
  | child {i : Nat} {it : TimelineItem} : data[i]? = some it → it.parentSpanID = p → Under data p i
  | deeper {i j : Nat} {it jt : TimelineItem} : Under data p j → data[j]? = some jt → data[i]? = some it →
      it.parentSpanID = jt.spanID → Under data p i

/-- Item `i` of the timeline is the item of a span below `q` in the trace. -/
def ItemBelow (tr : Tree) (q : Span) (items : List TimelineItem) (i : Nat) : Prop :=
  ∃ it s, items[i]? = some it ∧ Below tr q s ∧ it.spanID = s.id.span.toText

end Spec

end Appdash
