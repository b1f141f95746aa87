import Verif.Model.DashboardScript
import Verif.Spec.DashboardRange

/-!
# Specification vocabulary for the page of the dashboard
-/

namespace Appdash.Spec

/-- The heading says that the table is about the time from `low` to `high` hours ago. -/
def HeadingSays (heading : Bytes) (low high : Nat) : Prop :=
  ∃ a b, Integer a low ∧ Integer b high ∧ (∀ c ∈ a ++ b, 48 ≤ c ∧ c ≤ 57) ∧ heading = b!"Timeline: " ++ a ++ b!"-" ++ b ++ b!" hours ago"

/-- The query string asks for the time from `s` to `e`, in nanoseconds from now. -/
def AsksFor (query : Bytes) (s e : Int) : Prop := RangeEnd query b!"start" s ∧ RangeEnd query b!"end" e

/-- The time from `low` to `high` hours ago, in nanoseconds from now. -/
def HoursAgo (low high : Nat) (s e : Int) : Prop := s = -(high * 3600000000000) ∧ e = -(low * 3600000000000)

/-- Nothing is to be expected any more: the timer is not running, and all requests have been answered. -/
def Quiet (p : DashPage) : Prop := p.timer = false ∧ p.waiting = []

/-- Requests do not fail, and answers arrive in the order of the requests. -/
def InOrder (events : List DashEvent) : Prop := ∀ i, DashEvent.failure i ∉ events ∧ (DashEvent.answer i ∈ events → i = 0)

/-- The positions that the slider has. -/
def OnSlider (v : SliderValue) : Prop := v.low ≤ v.high ∧ v.high ≤ 72

instance (v : SliderValue) : Decidable (OnSlider v) := inferInstanceAs (Decidable (_ ∧ _))

end Appdash.Spec
