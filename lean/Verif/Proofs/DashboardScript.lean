import Verif.Spec.DashboardScript
import Verif.Proofs.Query
import Verif.Proofs.Pages
import Verif.Properties.Dashboard
import Verif.Properties.DashboardRange

/-!
# Facts about the page of the dashboard
-/

namespace Appdash

open Spec

theorem formatDec_digits (n : Nat) : ∀ c ∈ formatDec n, 48 ≤ c ∧ c ≤ 57 := by
  intro c h
  have := formatDecAux_digits _ _ c h
  clear h
  revert this
  exact byte_cases (fun c => isDigitByte c = true → 48 ≤ c ∧ c ≤ 57) (by decide +kernel) c

theorem formatDec_plain (n : Nat) : ∀ c ∈ formatDec n, PlainURL c := by
  intro c h
  have := formatDecAux_digits _ _ c h
  clear h
  revert this
  exact byte_cases (fun c => isDigitByte c = true → PlainURL c) (by decide +kernel) c

theorem formatDec_integer {n : Nat} (h : n < 2 ^ 63) : Integer (formatDec n) n :=
  (parseIntDec_iff.1 (parseIntDec_formatInt (n : Int) (by omega) (by omega))).1

theorem setting_plain {key v : Bytes} (hk : ∀ c ∈ key, PlainURL c) (hv : ∀ c ∈ v, PlainURL c) :
    querySetting (key ++ 61 :: v) = some (key, v) ∧ 38 ∉ key ++ 61 :: v := by
  have n38 : (38 : UInt8) ∉ key ++ 61 :: v := by
    simp only [List.mem_append, List.mem_cons, not_or]
    exact ⟨fun h => (hk _ h).2.2.2.1 rfl, by decide, fun h => (hv _ h).2.2.2.1 rfl⟩
  have n59 : (59 : UInt8) ∉ key ++ 61 :: v := by
    simp only [List.mem_append, List.mem_cons, not_or]
    exact ⟨fun h => (hk _ h).2.2.2.2.2.1 rfl, by decide, fun h => (hv _ h).2.2.2.2.2.1 rfl⟩
  have n61 : (61 : UInt8) ∉ key := fun h => (hk _ h).2.2.2.2.2.2.1 rfl
  refine ⟨?_, n38⟩
  unfold querySetting
  rw [if_neg (by simp [n59]), cutAt_append _ _ _ n61]
  simp only [queryUnescape_plain key (fun c hc => ⟨(hk c hc).2.2.1, (hk c hc).2.2.2.2.1⟩),
    queryUnescape_plain v (fun c hc => ⟨(hv c hc).2.2.1, (hv c hc).2.2.2.2.1⟩)]

theorem query_get (v : SliderValue) : queryGet v.query b!"start" = formatDec v.low ∧ queryGet v.query b!"end" = formatDec v.high := by
  obtain ⟨s1, n1⟩ := setting_plain (key := b!"start") (v := formatDec v.low) (by decide) (formatDec_plain _)
  obtain ⟨s2, n2⟩ := setting_plain (key := b!"end") (v := formatDec v.high) (by decide) (formatDec_plain _)
  have e : v.query = List.intercalate [38] [b!"start" ++ 61 :: formatDec v.low, b!"end" ++ 61 :: formatDec v.high] := by
    simp [SliderValue.query, List.intercalate]
  have hs : splitOn 38 v.query = [b!"start" ++ 61 :: formatDec v.low, b!"end" ++ 61 :: formatDec v.high] := by
    rw [e, splitOn_intercalate _ _ (by simpa using ⟨by simpa using n1, by simpa using n2⟩) (by simp)]
  constructor
  · simp only [queryGet, hs, List.filterMap_cons, s1, s2, List.filterMap_nil]
    rfl
  · simp only [queryGet, hs, List.filterMap_cons, s1, s2, List.filterMap_nil]
    rfl

theorem query_asks {v : SliderValue} (h1 : v.low ≤ 2562119) (h2 : v.high ≤ 2562119) {s e : Int} :
    AsksFor v.query s e ↔ s = ((v.low : Int) - 72) * 3600000000000 ∧ e = ((v.high : Int) - 72) * 3600000000000 := by
  obtain ⟨q1, q2⟩ := query_get v
  have r1 := dashboard_range (query := v.query) (key := b!"start") (v := v.low) (by omega) (by omega) q1
  have r2 := dashboard_range (query := v.query) (key := b!"end") (v := v.high) (by omega) (by omega) q2
  unfold AsksFor
  rw [← range_end_read, ← range_end_read, r1, r2]
  simp only [Option.some.injEq]
  constructor
  · rintro ⟨h, h'⟩; exact ⟨h.symm, h'.symm⟩
  · rintro ⟨h, h'⟩; exact ⟨h.symm, h'.symm⟩

theorem heading_says (v : SliderValue) (h1 : v.low < 2 ^ 63) (h2 : v.high < 2 ^ 63) : HeadingSays v.heading v.low v.high := by
  refine ⟨formatDec v.low, formatDec v.high, formatDec_integer h1, formatDec_integer h2, ?_, ?_⟩
  · intro c hc
    rcases List.mem_append.1 hc with h | h
    · exact formatDec_digits _ c h
    · exact formatDec_digits _ c h
  · simp [SliderValue.heading]

/-! ## What happens on the page -/

theorem run_heading (events : List DashEvent) {p : DashPage} (h : p.heading = p.slider.heading) :
    (p.run events).heading = (p.run events).slider.heading := by
  induction events generalizing p with
  | nil => exact h
  | cons e es ih =>
    apply ih
    cases e with
    | change v => rfl
    | timeout =>
      simp only [DashPage.step]
      split
      · exact h
      · exact h
    | refresh => exact h
    | answer i =>
      simp only [DashPage.step]
      split
      · exact h
      · exact h
    | failure i => exact h

/-- What the table will show when all requests have been answered in order. -/
def DashPage.last (p : DashPage) : Option SliderValue := p.waiting.getLast?.or p.table

theorem run_last (events : List DashEvent) {p : DashPage} (ho : InOrder events) (h : p.timer = true ∨ p.last = some p.slider) :
    (p.run events).timer = true ∨ (p.run events).last = some (p.run events).slider := by
  induction events generalizing p with
  | nil => exact h
  | cons e es ih =>
    have ho' : InOrder es := fun i => ⟨fun hi => (ho i).1 (List.mem_cons_of_mem _ hi), fun hi => (ho i).2 (List.mem_cons_of_mem _ hi)⟩
    apply ih ho'
    cases e with
    | change v => exact Or.inl rfl
    | timeout =>
      simp only [DashPage.step]
      split
      · right; simp [DashPage.last]
      · exact h
    | refresh => right; simp [DashPage.step, DashPage.last]
    | answer i =>
      obtain rfl := (ho i).2 (List.mem_cons_self ..)
      rcases h with h | h
      · left
        simp only [DashPage.step]
        split <;> exact h
      · right
        simp only [DashPage.step]
        cases hw : p.waiting with
        | nil => simpa [hw] using h
        | cons x l =>
          cases l with
          | nil =>
            simp only [DashPage.last, hw] at h
            simpa [DashPage.last] using h
          | cons y l =>
            simp only [DashPage.last, hw] at h
            have : (y :: l).getLast? = some p.slider := by simpa using h
            simp [DashPage.last, this]
    | failure i => exact absurd (List.mem_cons_self ..) (ho i).1

theorem run_slider (events : List DashEvent) {p : DashPage} {P : SliderValue → Prop} (hp : P p.slider)
    (h : ∀ v, DashEvent.change v ∈ events → P v) : P (p.run events).slider := by
  induction events generalizing p with
  | nil => exact hp
  | cons e es ih =>
    refine ih ?_ (fun v hv => h v (List.mem_cons_of_mem _ hv))
    cases e with
    | change v => exact h v (List.mem_cons_self ..)
    | timeout => simp only [DashPage.step]; split <;> exact hp
    | refresh => exact hp
    | answer i => simp only [DashPage.step]; split <;> exact hp
    | failure i => exact hp

end Appdash
