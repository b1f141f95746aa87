import Verif.Model.Times
import Verif.Spec.Event

/-!
# Specification of a span's time bounds
-/

namespace Appdash

/-- The time is not the zero time (in any zone) and lies in the range of `UnixNano`, from September 1677 to April 2262. -/
def GoTime.Ordinary (t : GoTime) : Prop :=
  t.instant ≠ GoTime.zero.instant ∧ -2 ^ 63 ≤ t.instant ∧ t.instant < 2 ^ 63

/-- The start and end times of the timespan events in a list of events. -/
def spansOf (evs : List (EventType × GVal)) : List (GoTime × GoTime) := evs.filterMap fun e => e.1.span e.2

/-- `s` and `e` are the bounds of the spans: the earliest start and the latest end. -/
structure Bounds (spans : List (GoTime × GoTime)) (s e : GoTime) : Prop where
  start_mem : s ∈ spans.map Prod.fst
  start_le : ∀ p ∈ spans, s.instant ≤ p.1.instant
  end_mem : e ∈ spans.map Prod.snd
  le_end : ∀ p ∈ spans, p.2.instant ≤ e.instant

end Appdash
