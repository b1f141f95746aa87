import Verif.Proofs.SampleData

/-! # Errors while the sample data is made -/

namespace Appdash
open Spec

/-- `Errors` returns what was there before, and what the events added. -/
theorem run_keeps_errors (env : RecEnv) : ∀ (as : List (Except RecErr (List Annotation))) (r : Recorder), r.logger = false → r.errors ≠ [] →
    (r.run env ((as.map RecOp.event) ++ [.errors])).2 ≠ []
  | [], r, _, h => by simpa [Recorder.run, Recorder.step, Recorder.takeErrors] using h
  | a :: as, r, hl, h => by
    rw [List.map_cons, List.cons_append, Recorder.run]
    have hs : (r.step env (.event a)).1.logger = false ∧ (r.step env (.event a)).1.errors ≠ [] := by
      cases a with
      | ok x => exact ⟨hl, h⟩
      | error e => simp [Recorder.step, Recorder.event, Recorder.error, Recorder.failsafeAnnotation, hl]
    have := run_keeps_errors env as _ hs.1 hs.2
    simp [this]

/-- The calls of a recorder are for its span. -/
theorem step_calls (env : RecEnv) (r : Recorder) (op : RecOp) (id : SpanID) (hr : r.span = id) (hc : ∀ c ∈ r.calls, c.1 = id) :
    (r.step env op).1.span = id ∧ ∀ c ∈ (r.step env op).1.calls, c.1 = id := by
  have he : ∀ (r : Recorder) m e, r.span = id → (∀ c ∈ r.calls, c.1 = id) →
      (r.error env m e).span = id ∧ ∀ c ∈ (r.error env m e).calls, c.1 = id := by
    intro r m e hr hc
    unfold Recorder.error Recorder.failsafeAnnotation
    simp only
    split
    · exact ⟨hr, fun c h => by rcases List.mem_append.1 h with h | h; exacts [hc c h, by simp at h; rw [h]; exact hr]⟩
    · exact ⟨hr, fun c h => by rcases List.mem_append.1 h with h | h; exacts [hc c h, by simp at h; rw [h]; exact hr]⟩
  have ha : ∀ (r : Recorder) as, r.span = id → (∀ c ∈ r.calls, c.1 = id) →
      (r.annotation env as).span = id ∧ ∀ c ∈ (r.annotation env as).calls, c.1 = id := by
    intro r as hr hc
    have h1 : ∀ c ∈ r.calls ++ [(r.span, as)], c.1 = id := fun c h => by
      rcases List.mem_append.1 h with h | h
      exacts [hc c h, by simp at h; rw [h]; exact hr]
    unfold Recorder.annotation Recorder.failsafeAnnotation
    split
    · rename_i h
      injection h with h
      subst h
      exact ⟨hr, h1⟩
    · rename_i h
      injection h with h
      subst h
      exact he _ _ _ hr h1
  cases op with
  | event as =>
    cases as with
    | ok x => exact ⟨hr, hc⟩
    | error e => exact he _ _ _ hr hc
  | annotation as => exact ha _ _ hr hc
  | finish =>
    show (r.finish env).span = id ∧ ∀ c ∈ (r.finish env).calls, c.1 = id
    unfold Recorder.finish
    split
    · exact he _ _ _ hr hc
    · exact ha _ _ hr hc
  | errors => exact ⟨hr, hc⟩

theorem run_calls (env : RecEnv) (id : SpanID) : ∀ (ops : List RecOp) (r : Recorder), r.span = id → (∀ c ∈ r.calls, c.1 = id) →
    (r.run env ops).1.span = id ∧ ∀ c ∈ (r.run env ops).1.calls, c.1 = id
  | [], _, hr, hc => ⟨hr, hc⟩
  | op :: ops, r, hr, hc => by
    obtain ⟨h1, h2⟩ := step_calls env r op id hr hc
    exact run_calls env id ops _ h1 h2

theorem finish_run_calls (env : RecEnv) (id : SpanID) (r : Recorder) (hr : r.span = id) (hc : ∀ c ∈ r.calls, c.1 = id) :
    ∀ c ∈ (r.finish env).calls, c.1 = id := (step_calls env r .finish id hr hc).2

/-- The calls for the spans of a trace are calls for that trace, and a name that cannot be encoded is reported. -/
theorem sampleDataSpans_errors (zone : Int → Int) (c : SampleInput) (i : Nat) (times : List Int) :
    ∀ (k j0 : Nat) (last : SpanID) (start : GoTime) (run : SampleRun), sampleDataSpans zone c i times k j0 last start = some run →
      (∀ x ∈ run.calls, x.1.trace = last.trace) ∧
      ∀ j, j0 ≤ j → j < j0 + k → (∀ v, ∃ e, c.marshal j spanNameEvent v = .error e) → run.result ≠ none
  | 0, j0, last, start, run, h => by
    cases h
    exact ⟨by simp, fun j h1 h2 => absurd h2 (by omega)⟩
  | k + 1, j0, last, start, run, h => by
    rw [sampleDataSpans] at h
    split at h
    · cases h
    rename_i ms hms
    simp only at h
    split at h
    · cases h
    rename_i tag htag
    generalize hev : sampleSpanEvents c i j0 start (start.add zone (ms * 1000000)) tag = evs at h
    have hcalls := run_calls (c.env j0) (newSpanID last (c.spanID j0))
      ((evs.map fun e => .event (c.marshal j0 e.1 e.2)) ++ [.errors]) (Recorder.new false (newSpanID last (c.spanID j0))) rfl
      (by simp [Recorder.new])
    have hbad : (∀ v, ∃ e, c.marshal j0 spanNameEvent v = .error e) →
        ((Recorder.new false (newSpanID last (c.spanID j0))).run (c.env j0)
          ((evs.map fun e => .event (c.marshal j0 e.1 e.2)) ++ [.errors])).2 ≠ [] := by
      intro hb
      obtain ⟨n, rest, rfl⟩ : ∃ n rest, evs = nameEv n :: rest := ⟨_, _, by rw [← hev]; rfl⟩
      obtain ⟨e, he⟩ := hb (nameEv n).2
      rw [List.map_cons, List.cons_append, Recorder.run]
      have hk := run_keeps_errors (c.env j0) (rest.map fun e => c.marshal j0 e.1 e.2)
        ((Recorder.new false (newSpanID last (c.spanID j0))).step (c.env j0) (.event (.error e))).1
        (by simp [Recorder.step, Recorder.event, Recorder.error, Recorder.failsafeAnnotation, Recorder.new])
        (by simp [Recorder.step, Recorder.event, Recorder.error, Recorder.failsafeAnnotation, Recorder.new])
      rw [List.map_map] at hk
      rw [show c.marshal j0 (nameEv n).1 (nameEv n).2 = .error e from he]
      intro h0
      exact hk (List.append_eq_nil_iff.1 h0).2
    split at h
    · cases h
      exact ⟨fun x hx => by rw [hcalls.2 x hx]; rfl, fun _ _ _ _ => by simp⟩
    · rename_i herr
      split at h
      · cases h
      · rename_i rest hrest
        cases h
        obtain ⟨r1, r2⟩ := sampleDataSpans_errors zone c i times k (j0 + 1) _ _ _ hrest
        refine ⟨?_, ?_⟩
        · intro x hx
          rcases List.mem_append.1 hx with hx | hx
          · rw [finish_run_calls _ _ _ hcalls.1 hcalls.2 x hx]; rfl
          · rw [r1 x hx]; rfl
        · intro j h1 h2 hb
          rcases Nat.eq_or_lt_of_le h1 with rfl | h1
          · exact absurd (List.length_pos_iff.2 (hbad hb)) herr
          · exact r2 j h1 (by omega) hb

theorem sampleDataTrace_errors (zone : Int → Int) (c : SampleInput) (i : Nat) (run : SampleRun) (h : sampleDataTrace zone c i = some run) :
    (∀ x ∈ run.calls, x.1.trace = c.traceID) ∧
      ∀ j, 1 ≤ j → j ≤ 3 → (∀ v, ∃ e, c.marshal j spanNameEvent v = .error e) → run.result ≠ none := by
  rw [sampleDataTrace] at h
  simp only at h
  split at h
  · split at h
    · cases h
    · split at h
      · cases h
      · rename_i rest hrest
        cases h
        obtain ⟨r1, r2⟩ := sampleDataSpans_errors _ _ _ _ _ _ _ _ _ hrest
        refine ⟨?_, fun j h1 h2 hb => r2 j h1 (by omega) hb⟩
        intro x hx
        rcases List.mem_append.1 hx with hx | hx
        · have := (run_calls (c.env 0) (newRootSpanID c.traceID c.rootID) _ (Recorder.new false _) rfl (by simp [Recorder.new])).2 x hx
          rw [this]; rfl
        · rw [r1 x hx]; rfl
  · cases h

theorem sampleLoop_errors (zone : Int → Int) (cs : Nat → SampleInput) {i j : Nat} (h1 : 1 ≤ j) (h3 : j ≤ 3)
    (hb : ∀ v, ∃ e, (cs i).marshal j spanNameEvent v = .error e) : ∀ (k i0 : Nat) (run : SampleRun), i0 ≤ i → i < i0 + k →
      sampleLoop zone cs k i0 = some run →
      run.result ≠ none ∧ ∀ x ∈ run.calls, ∃ t, i0 ≤ t ∧ t ≤ i ∧ x.1.trace = (cs t).traceID
  | 0, i0, run, ha, hz, h => absurd hz (by omega)
  | k + 1, i0, run, ha, hz, h => by
    rw [sampleLoop] at h
    split at h
    · cases h
    rename_i r hr
    obtain ⟨t1, t2⟩ := sampleDataTrace_errors zone (cs i0) i0 r hr
    split at h
    · cases h
      exact ⟨by simp, fun x hx => ⟨i0, Nat.le_refl _, ha, t1 x hx⟩⟩
    · rename_i hnone
      split at h
      · cases h
      · rename_i rest hrest
        cases h
        rcases Nat.eq_or_lt_of_le ha with rfl | ha
        · exact absurd hnone (t2 j h1 h3 hb)
        · obtain ⟨r1, r2⟩ := sampleLoop_errors zone cs h1 h3 hb k (i0 + 1) rest ha (by omega) hrest
          refine ⟨r1, fun x hx => ?_⟩
          rcases List.mem_append.1 hx with hx | hx
          · exact ⟨i0, Nat.le_refl _, by omega, t1 x hx⟩
          · obtain ⟨t, a, b, c⟩ := r2 x hx
            exact ⟨t, by omega, b, c⟩

end Appdash
