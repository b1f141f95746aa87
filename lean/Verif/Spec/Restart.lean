import Verif.Spec.Store

/-! # Specification vocabulary for a trace that is collected on both sides of a restart -/

namespace Appdash.Spec

/-- The spans shown of a trace after a restart.  `before` and `after` are the `Collect` calls for the trace on the two
sides of the restart, `oldRoot` the span shown as the root when the store was saved and `root` the span shown as the root
now.

A span is shown if it is the root, or its parent was never collected, or its parent is shown; except that a span does not
appear below a parent collected before the restart when it was itself first collected after the restart (or was the
root when the store was saved). -/
inductive Shown (before after : List Entry) (oldRoot root : ID) : ID → Prop
  | root : Shown before after oldRoot root root
  | orphan {s p : ID} : declaredParent (before ++ after) s = some p → ¬ Collected (before ++ after) p →
      Shown before after oldRoot root s
  | child {s p : ID} : declaredParent (before ++ after) s = some p → Shown before after oldRoot root p →
      ¬ (Collected before p ∧ (¬ Collected before s ∨ s = oldRoot)) → Shown before after oldRoot root s

end Appdash.Spec
