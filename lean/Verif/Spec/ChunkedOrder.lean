import Verif.Spec.Chunked

/-! # Specification: the order in which the annotations of a span arrive -/

namespace Appdash.Chunked

/-- The annotations of every span are passed to the underlying collector in the order in which they were collected (some may be missing). -/
def InOrder (h : List Event) : Prop :=
  ∀ id, (annotationsOf id (deliveredCalls h)).Sublist (annotationsOf id (acceptedCalls h))

/-- A flush begins only when all earlier ones have ended. -/
def OneAtATime (h : List Event) : Prop :=
  ∀ h1 f h2, h = h1 ++ .flushBegin f :: h2 → ∀ g, .flushBegin g ∈ h1 → ∃ err, .flushEnd g err ∈ h1

/-- States that are reached without a call of `Flush` by the user: only the background goroutine begins a flush. -/
inductive ReachableUnflushed (cfg : Cfg) : State → Prop
  | init : ReachableUnflushed cfg {}
  | step {s s' : State} : ReachableUnflushed cfg s → Step cfg s s' →
      (s'.nextFlush ≠ s.nextFlush → s.bg = .waiting ∧ s'.bg = .flushing s.nextFlush) → ReachableUnflushed cfg s'

end Appdash.Chunked
