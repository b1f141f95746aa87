import Verif.Properties.Services

/-!
# C127: requests whose handler panics

httptrace/server.go:70-111: the recorder is made and the event recorded after the next handler has returned; there is no `defer`.
-/

namespace Appdash

/-- Property C127, in full: every request that reaches the next handler is recorded. -/
def EveryRequestRecorded : Prop :=
  ∀ (env : ServerEnv) (n : Nat) (r : Request) (h : Header) (out : ServerRun), Serves env n r h out → out.passed ≠ none → out.recorder ≠ none

/-- The service `frontEnv`, with a handler that panics. -/
def panickingEnv : ServerEnv := { frontEnv with next := fun _ _ _ => none }

/-- Property C127 is false of the code: requests whose handler panics leave no trace. -/
theorem every_request_recorded_false : ¬ EveryRequestRecorded := by
  intro hall
  obtain ⟨out, hs⟩ := serves_total panickingEnv 0 sampleReq []
  have hs' := hs
  rw [Serves, show (getSpanIDFrom panickingEnv.src 0 []).spanID = some ⟨1, 2, 0⟩ by decide] at hs'
  exact hall _ _ _ _ out hs (by rw [hs'.2.2.1]; simp) hs'.2.2.2.2

/-- Property C127, proved part: the middleware itself never panics after the handler has been called, it does not swallow the handler's panic, and a
request that reached the handler is recorded, as a span with its ID and the event, if and only if the handler did not panic. -/
theorem every_request_recorded_partial (env : ServerEnv) (n : Nat) (r : Request) (h : Header) (out : ServerRun) (hs : Serves env n r h out)
    (q : Request) (qh : Header) (id : SpanID) (hp : out.passed = some (q, qh, id)) :
    (out.panicked = true ↔ env.next r h id = none) ∧ (out.panicked = true → out.recorder = none) ∧
      (out.panicked = false → ∃ rec name value, out.recorder = some rec ∧ RecordsEvent env.collector id (some name) serverEvent value rec) := by
  unfold Serves at hs
  obtain ⟨_, _, hs⟩ := hs
  split at hs
  · rw [hs.1] at hp; simp at hp
  · next id' hg =>
    obtain ⟨hp', hs⟩ := hs
    rw [hp'] at hp
    simp only [Option.some.injEq, Prod.mk.injEq] at hp
    obtain ⟨rfl, rfl, rfl⟩ := hp
    split at hs
    · next hn => exact ⟨by simp [hs.1, hn], fun _ => hs.2, fun hf => by simp [hs.1] at hf⟩
    · next run hn =>
      obtain ⟨h1, _, _, _, rec, _, _, h3, h4⟩ := hs
      exact ⟨by simp [h1, hn], fun hf => by simp [h1] at hf, fun _ => ⟨rec, _, _, h4, h3⟩⟩

/-- The handler of `frontEnv` does not panic: the request is recorded. -/
example : ∃ out, Serves frontEnv 0 sampleReq [] out ∧ out.passed = some (sampleReq, [], ⟨1, 2, 0⟩) ∧ out.panicked = false := by
  obtain ⟨out, hs⟩ := serves_total frontEnv 0 sampleReq []
  have hs' := hs
  rw [Serves, show (getSpanIDFrom frontEnv.src 0 []).spanID = some ⟨1, 2, 0⟩ by decide] at hs'
  exact ⟨out, hs, hs'.2.2.1, hs'.2.2.2.1⟩

/-- The handler of `panickingEnv` panics, and so does the middleware. -/
example : ∃ out, Serves panickingEnv 0 sampleReq [] out ∧ out.passed = some (sampleReq, [], ⟨1, 2, 0⟩) ∧ out.panicked = true ∧ out.recorder = none := by
  obtain ⟨out, hs⟩ := serves_total panickingEnv 0 sampleReq []
  have hs' := hs
  rw [Serves, show (getSpanIDFrom panickingEnv.src 0 []).spanID = some ⟨1, 2, 0⟩ by decide] at hs'
  exact ⟨out, hs, hs'.2.2.1, hs'.2.2.2.1, hs'.2.2.2.2⟩

end Appdash
