import Verif.Proofs.DashboardScript

/-!
# Property C147: the heading of the dashboard tells what its table is about
-/

namespace Appdash

open Spec

/-- **C147**, first part of the expectation: the table is about the hours that the heading names. -/
def HeadingTellsHours : Prop :=
  ∀ v, OnSlider v → ∀ low high s e, HeadingSays v.heading low high → AsksFor v.query s e → HoursAgo low high s e

/-- **C147** (what is asked for).  With the slider at `low` and `high` the heading names the time from `low` to `high` hours ago, and the
aggregator is asked for the time from `72 - low` to `72 - high` hours ago. -/
theorem heading_and_range_partial {v : SliderValue} (hv : OnSlider v) {s e : Int} :
    HeadingSays v.heading v.low v.high ∧
      (AsksFor v.query s e ↔ s = -((72 - v.low) * 3600000000000) ∧ e = -((72 - v.high) * 3600000000000)) := by
  obtain ⟨h1, h2⟩ := hv
  refine ⟨heading_says v (by omega) (by omega), ?_⟩
  rw [query_asks (by omega) (by omega)]
  constructor
  · rintro ⟨h, h'⟩; exact ⟨by omega, by omega⟩
  · rintro ⟨h, h'⟩; exact ⟨by omega, by omega⟩

/-- **C147** (the heading is wrong).  With the slider at 0 and 24 the heading is "Timeline: 0-24 hours ago", and the table is about the time
from 48 to 72 hours ago. -/
theorem heading_wrong : ¬ HeadingTellsHours := by
  intro H
  have hv : OnSlider ⟨0, 24⟩ := by decide
  obtain ⟨h1, h2⟩ := heading_and_range_partial (s := -(72 * 3600000000000)) (e := -(48 * 3600000000000)) hv
  obtain ⟨h, -⟩ := H _ hv _ _ _ _ h1 (h2.2 (by decide))
  exact absurd h (by decide)

example : SliderValue.heading ⟨0, 24⟩ = b!"Timeline: 0-24 hours ago" ∧ SliderValue.query ⟨0, 24⟩ = b!"start=0&end=24" := by decide

/-- **C147** (when the heading is right).  The table is about the hours in the heading exactly if the positions add up to 72. -/
theorem heading_right_iff_partial {v : SliderValue} (hv : OnSlider v) :
    (∃ s e, AsksFor v.query s e ∧ HoursAgo v.low v.high s e) ↔ v.low + v.high = 72 := by
  constructor
  · rintro ⟨s, e, h, h1, h2⟩
    obtain ⟨-, h'⟩ := heading_and_range_partial (s := s) (e := e) hv
    obtain ⟨h3, h4⟩ := h'.1 h
    omega
  · intro h
    obtain ⟨-, h'⟩ := heading_and_range_partial (s := -((72 - v.low) * 3600000000000)) (e := -((72 - v.high) * 3600000000000)) hv
    exact ⟨_, _, h'.2 ⟨rfl, rfl⟩, by omega, by omega⟩

example : OnSlider ⟨0, 72⟩ ∧ OnSlider ⟨24, 48⟩ := by decide

/-- **C147**, second part: when nothing is to be expected any more, the table is about the range that the slider and the heading show. -/
def TableFollowsSlider : Prop :=
  ∀ events, (∀ v, DashEvent.change v ∈ events → OnSlider v) → Quiet (DashPage.opened.run events) →
    (DashPage.opened.run events).heading = (DashPage.opened.run events).slider.heading ∧
      (DashPage.opened.run events).table = some (DashPage.opened.run events).slider

/-- **C147** (an old answer).  The answer to the first request arrives after the answer to the second, and stays. -/
theorem table_falls_behind : ¬ TableFollowsSlider := by
  intro H
  have := H [.change ⟨0, 24⟩, .timeout, .answer 1, .answer 0] (by intro v hv; simp at hv; subst hv; decide) (by unfold Quiet; decide)
  exact absurd this.2 (by decide)

/-- **C147** (the heading).  The heading always shows the positions of the slider. -/
theorem heading_follows_slider (events : List DashEvent) :
    (DashPage.opened.run events).heading = (DashPage.opened.run events).slider.heading :=
  run_heading events (by decide)

/-- **C147** (the table).  If requests do not fail and answers arrive in the order of the requests, the table is about the range that the
slider shows once nothing is to be expected any more. -/
theorem table_follows_slider_partial {events : List DashEvent} (ho : InOrder events) (hq : Quiet (DashPage.opened.run events)) :
    (DashPage.opened.run events).table = some (DashPage.opened.run events).slider := by
  rcases run_last events ho (p := DashPage.opened) (Or.inr rfl) with h | h
  · rw [hq.1] at h; cases h
  · simpa [DashPage.last, hq.2] using h

-- The slider is moved twice before the timer ends, and once while a request is being answered.
example : InOrder [.change ⟨0, 24⟩, .change ⟨1, 24⟩, .timeout, .answer 0, .change ⟨5, 9⟩, .answer 0, .timeout, .answer 0] ∧
    Quiet (DashPage.opened.run [.change ⟨0, 24⟩, .change ⟨1, 24⟩, .timeout, .answer 0, .change ⟨5, 9⟩, .answer 0, .timeout, .answer 0]) ∧
    (DashPage.opened.run [.change ⟨0, 24⟩, .change ⟨1, 24⟩, .timeout, .answer 0, .change ⟨5, 9⟩, .answer 0, .timeout, .answer 0]).table =
      some ⟨5, 9⟩ := by
  refine ⟨fun i => ⟨by simp, by simp⟩, by unfold Quiet; decide, by decide⟩

/-- **C147** (both together).  Under the same conditions, the table is about the hours that the heading names if the positions of the slider
add up to 72; otherwise about the hours counted from the other end of the three days. -/
theorem dashboard_page_partial {events : List DashEvent} (ho : InOrder events) (hv : ∀ v, DashEvent.change v ∈ events → OnSlider v)
    (hq : Quiet (DashPage.opened.run events)) :
    ∃ v low high, (DashPage.opened.run events).table = some v ∧ HeadingSays (DashPage.opened.run events).heading low high ∧
      AsksFor v.query (-((72 - low) * 3600000000000)) (-((72 - high) * 3600000000000)) := by
  have hs : OnSlider (DashPage.opened.run events).slider := run_slider events (P := OnSlider) (by decide) hv
  obtain ⟨h1, h2⟩ := heading_and_range_partial (s := -((72 - ((DashPage.opened.run events).slider.low : Int)) * 3600000000000))
    (e := -((72 - ((DashPage.opened.run events).slider.high : Int)) * 3600000000000)) hs
  refine ⟨_, _, _, table_follows_slider_partial ho hq, ?_, h2.2 ⟨rfl, rfl⟩⟩
  rw [heading_follows_slider]
  exact h1

end Appdash
