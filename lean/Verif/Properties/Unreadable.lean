import Verif.Proofs.Unreadable

/-!
# Spans whose events cannot be read

C42, C49, C50 and C51: what `TimespanEvent`, the profile, the aggregate view and the timeline do with a span for which `UnmarshalEvents` returns an
error.  They return an error, and no result that leaves the span out.
-/

namespace Appdash

/-- Property C42.  `TimespanEvent` returns the error of `UnmarshalEvents`, also if some of the events could be read. -/
theorem timespan_unreadable (reg : Registry) (s : Span) (err : EventErr) (h : Unreadable reg s err) :
    traceTimespan reg s.annotations = some (.error (.event err)) := by
  simp only [traceTimespan, h.times]

/-- Property C42.  A result without an error is made of the events that `UnmarshalEvents` returned, without an error. -/
theorem timespan_read (reg : Registry) (as : List Annotation) (r : GoTime × GoTime) (h : traceTimespan reg as = some (.ok r)) :
    ∃ evs, unmarshalEvents reg as = some (evs, none) ∧ ∃ e ∈ evs, ∃ E, AMap.get reg e.1 = some E ∧ E.span e.2 ≠ none := by
  unfold traceTimespan spanTimes at h
  cases hu : unmarshalEvents reg as with
  | none => rw [hu] at h; simp at h
  | some r =>
    obtain ⟨evs, _ | err⟩ := r
    · refine ⟨evs, rfl, ?_⟩
      rw [hu] at h
      simp only at h
      cases hf : evs.filterMap (asTimespan reg) with
      | nil =>
        rw [hf] at h
        have : findTraceTimes [] = (GoTime.zero, GoTime.zero, false) := by rfl
        rw [this] at h
        simp at h
      | cons p ps =>
        have hp : p ∈ evs.filterMap (asTimespan reg) := hf ▸ List.mem_cons_self ..
        obtain ⟨e, he, hep⟩ := List.mem_filterMap.1 hp
        refine ⟨e, he, ?_⟩
        unfold asTimespan at hep
        cases hE : AMap.get reg e.1 with
        | none => rw [hE] at hep; simp at hep
        | some E =>
          refine ⟨E, rfl, ?_⟩
          rw [hE] at hep
          intro hs
          simp [hs] at hep
    · rw [hu] at h; simp at h

/-- Property C49.  There is no profile of a trace with a span that cannot be read. -/
theorem profile_unreadable (env : ViewEnv) (t : Tree) (s : Span) (hs : s ∈ t.spans) (err : EventErr) (h : Unreadable env.reg s err) :
    ∀ r, calcProfile env t ≠ some (.ok r) := by
  intro r hr
  obtain ⟨ts, hts, _⟩ := calcProfile_ok env t r hr s hs
  rw [h.times] at hts
  simp at hts

/-- Property C50.  There is no aggregate view of traces among which is one with a span that cannot be read. -/
theorem aggregate_unreadable (env : ViewEnv) (mode : AggMode) (traces : List Tree) (t : Tree) (ht : t ∈ traces) (s : Span) (hs : s ∈ t.spans)
    (err : EventErr) (h : Unreadable env.reg s err) : ∀ m, aggregate env mode traces ≠ some (.ok m) := by
  intro m hm
  obtain ⟨r, hr⟩ := aggTraces_read env mode traces [] m hm t ht
  exact profile_unreadable env t s hs err h r hr

/-- Property C51.  There is no timeline of a trace if a span that it must look at cannot be read, or has no name. -/
theorem timeline_unreadable (env : ViewEnv) (t : Tree) (s : Span) (hs : Reached env t s)
    (h : (∃ err, Unreadable env.reg s err) ∨ annotationsName s.annotations = []) : ∀ items, d3timeline env t ≠ some (.ok items) := by
  intro items hi
  obtain ⟨hn, ts, hts⟩ := reached_read env t s hs 0 items hi
  rcases h with ⟨err, h⟩ | h
  · rw [h.times] at hts; simp at hts
  · exact hn h

/-! ## A trace with such a span -/

/-- An event with its own `UnmarshalEvent`, which refuses. -/
def pickyEvent : EventType := { schema := b!"picky", type := .struct [] [], unmarshaler := some fun _ => .error 7 }

/-- The events of the library and that one. -/
def pickyEnv : ViewEnv := { sampleEnv with reg := (registerEvent libReg pickyEvent).getD [] }

/-- Its timespan can be read, the other event cannot. -/
def badSpan : Span := ⟨⟨1, 2, 1⟩, (namedSpan ⟨1, 2, 1⟩ b!"a" 1 3).annotations ++ [⟨b!"_schema:picky", none⟩]⟩

def badTrace : Tree := .node (namedSpan ⟨1, 1, 0⟩ b!"root" 0 9) [.node badSpan []]

/-- The hypotheses are met. -/
example : Unreadable pickyEnv.reg badSpan (.custom 7) ∧ badSpan ∈ badTrace.spans ∧ Reached pickyEnv badTrace badSpan :=
  ⟨⟨_, rfl⟩, List.mem_cons_of_mem _ (List.mem_cons_self ..), .under _ _ _ _ (by rfl) (List.mem_cons_self ..) (.root _ _)⟩

end Appdash
