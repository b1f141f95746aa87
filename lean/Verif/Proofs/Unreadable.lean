import Verif.Properties.Views
import Verif.Properties.Times

/-! # Spans whose events cannot be read: definitions and lemmas -/

namespace Appdash

/-- `UnmarshalEvents` returns an error for the span's annotations. -/
def Unreadable (reg : Registry) (s : Span) (err : EventErr) : Prop := ∃ evs, unmarshalEvents reg s.annotations = some (evs, some err)

/-- A span that the timeline must look at: the root, and the children of spans that it looks at and that are timed. -/
inductive Reached (env : ViewEnv) : Tree → Span → Prop
  | root (s : Span) (cs : List Tree) : Reached env (.node s cs) s
  | under (s : Span) (cs : List Tree) (c : Tree) (x : Span) : timed env s = true → c ∈ cs → Reached env c x → Reached env (.node s cs) x

theorem Unreadable.times {reg : Registry} {s : Span} {err : EventErr} (h : Unreadable reg s err) :
    spanTimes reg s.annotations = some (.error err) := by
  obtain ⟨evs, h⟩ := h
  simp only [spanTimes, h]

theorem aggTraces_read (env : ViewEnv) (mode : AggMode) : ∀ (ts : List Tree) (m m' : AMap Bytes Int),
    aggTraces env mode ts m = some (.ok m') → ∀ t ∈ ts, ∃ r, calcProfile env t = some (.ok r)
  | [], _, _, _ => by simp
  | t :: ts, m, m', h => by
    simp only [aggTraces] at h
    cases hc : calcProfile env t with
    | none => rw [hc] at h; simp at h
    | some r =>
      cases r with
      | error e => rw [hc] at h; simp at h
      | ok r =>
        obtain ⟨ps, p⟩ := r
        rw [hc] at h
        have hrest : ∃ m₁, aggTraces env mode ts m₁ = some (.ok m') := by
          cases mode with
          | traceOnly => exact ⟨_, h⟩
          | spanOnly =>
            cases ps with
            | nil => simp at h
            | cons q qs => exact ⟨_, h⟩
          | traceAndSpan =>
            cases ps with
            | nil => simp at h
            | cons q qs => exact ⟨_, h⟩
        obtain ⟨m₁, h₁⟩ := hrest
        intro x hx
        rcases List.mem_cons.1 hx with rfl | hx
        · exact ⟨_, hc⟩
        · exact aggTraces_read env mode ts m₁ m' h₁ x hx

theorem d3timelineSubs_mem (env : ViewEnv) (depth : Nat) : ∀ (cs : List Tree) (items : List TimelineItem),
    d3timelineSubs env depth cs = some (.ok items) → ∀ c ∈ cs, ∃ is, d3timelineInner env depth c = some (.ok is)
  | [], _, _ => by simp
  | c :: cs, items, h => by
    simp only [d3timelineSubs] at h
    cases h1 : d3timelineInner env depth c with
    | none => rw [h1] at h; simp at h
    | some r =>
      cases r with
      | error e => rw [h1] at h; simp at h
      | ok is =>
        rw [h1] at h
        cases h2 : d3timelineSubs env depth cs with
        | none => rw [h2] at h; simp at h
        | some r =>
          cases r with
          | error e => rw [h2] at h; simp at h
          | ok js =>
            intro x hx
            rcases List.mem_cons.1 hx with rfl | hx
            · exact ⟨_, h1⟩
            · exact d3timelineSubs_mem env depth cs js h2 x hx

theorem reached_read (env : ViewEnv) (t : Tree) (x : Span) (hx : Reached env t x) : ∀ (depth : Nat) (items : List TimelineItem),
    d3timelineInner env depth t = some (.ok items) →
      annotationsName x.annotations ≠ [] ∧ ∃ ts, spanTimes env.reg x.annotations = some (.ok ts) := by
  induction hx with
  | root s cs =>
    intro depth items h
    refine ⟨(timeline_ok_spec env _ depth items h).2.1, ?_⟩
    simp only [d3timelineInner] at h
    cases hts : spanTimes env.reg s.annotations with
    | none => rw [hts] at h; simp at h
    | some r =>
      cases r with
      | error e => rw [hts] at h; simp at h
      | ok ts => exact ⟨ts, rfl⟩
  | under s cs c x ht hc _ ih =>
    intro depth items h
    have hn := (timeline_ok_spec env _ depth items h).2.1
    simp only [Tree.span] at hn
    simp only [d3timelineInner] at h
    cases hts : spanTimes env.reg s.annotations with
    | none => rw [hts] at h; simp at h
    | some r =>
      cases r with
      | error e => rw [hts] at h; simp at h
      | ok ts =>
        rw [hts] at h
        simp only [if_neg hn] at h
        have hv : validTimes ts ≠ [] := by
          intro hv
          simp [timed, hts, hv] at ht
        have hT : ¬ labelTimes env.durText (annotationsName s.annotations) (timelineTimes (s.id.parent == 0) [] ts) = [] := by
          rw [labelTimes_nil_iff, timelineTimes_nil_iff]; exact hv
        rw [if_neg hT] at h
        cases hsub : d3timelineSubs env (depth + 1) cs with
        | none => rw [hsub] at h; simp at h
        | some r =>
          cases r with
          | error e => rw [hsub] at h; simp at h
          | ok is =>
            obtain ⟨is', h'⟩ := d3timelineSubs_mem env (depth + 1) cs is hsub c hc
            exact ih (depth + 1) is' h'

end Appdash
