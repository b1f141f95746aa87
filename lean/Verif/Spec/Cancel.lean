import Verif.Model.Cancel

/-!
# Specification vocabulary for cancelling requests
-/

namespace Appdash

/-- A call of `RoundTrip` has begun and has not returned. -/
def Spec.Trip.Running (t : Trip) : Prop := t.phase ≠ .done

/-- At no time two calls of `RoundTrip` for the same request run at once. -/
def Spec.NoReuse (canCancel : Bool) (acts : List TransportAct) : Prop :=
  ∀ pre, pre <+: acts → ∀ s, TransportState.new.run canCancel pre = some s →
    ∀ k k' t t', s.trips k = some t → s.trips k' = some t' → Trip.Running t → Trip.Running t' → t.original = t'.original → k = k'

/-- What the call `j` of `CancelRequest` made of the underlying transport. -/
def Spec.forwarded (j : Nat) (log : List InnerCall) : List Nat :=
  log.filterMap fun e =>
    match e with
    | .cancel j' c => if j' = j then some c else none
    | .roundTrip _ _ => none

end Appdash
