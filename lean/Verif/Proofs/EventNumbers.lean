import Verif.Spec.EventNumbers
import Verif.Proofs.EventFlat

/-! # Lemmas about durations and floating-point numbers in events -/

namespace Appdash

theorem parseScalar_close {s : ScalarTy} {x : Scalar} (h : Approximable s x) : ∃ z, parseScalar s x.text = some z ∧ CloseTo x z := by
  have hexact : s.holds x = true → ∃ z, parseScalar s x.text = some z ∧ CloseTo x z := by
    intro hh
    refine ⟨x, parseScalar_text hh, ?_⟩
    unfold CloseTo
    split
    · exact .inl rfl
    · exact ⟨rfl, by simp, by simp⟩
    · rfl
  unfold Approximable at h
  split at h
  · rename_i d
    rcases h with h | h
    · obtain ⟨d', h1, h2⟩ := duration_near h
      exact ⟨.duration d', by simp [parseScalar, Scalar.text, h1], h2⟩
    · exact hexact h
  · rename_i neg k
    rcases h with ⟨h1, h2, h3⟩ | h
    · obtain ⟨k', q1, q2⟩ := parseFloat_near (neg := neg) (k := k) (by
        obtain ⟨m, e, hm, he⟩ := h1.1
        exact hasBits_iff.2 ⟨m, e, hm, Nat.zero_le _, he⟩) h2 h3
      exact ⟨.float (.fin neg k'), by simp [parseScalar, Scalar.text, q1], rfl, q2⟩
    · exact hexact h
  · exact hexact h

/-- What is read of a `stepEvent`. -/
theorem step_reads (d d' : Int) (h : parseDuration (formatDuration d) = some d') (own : List Annotation)
    (hm : Marshals stepEvent (.struct [.scalar (.duration d)]) (.ok own)) :
    unmarshalEvent stepEvent own stepEvent.type.zero = some (.struct [.scalar (.duration d')], none) := by
  have := flat_event_reads stepEvent ⟨rfl, rfl⟩ [b!"Took"] [.duration] rfl (by decide) (by decide) rfl (by decide) [.duration d] rfl own hm
    [] [] (by simp) [.duration d'] rfl (by
      intro i s x z h1 h2 h3
      match i with
      | 0 => cases h1; cases h2; cases h3; simp [parseScalar, Scalar.text, h]) [.scalar (.duration 0)] rfl
  rw [List.append_nil] at this
  exact this

/-- What is read of a `rateEvent`. -/
theorem rate_reads (x y : GoFloat) (unit : Bytes) (h : parseFloat true (formatFloat x) = some y) (own : List Annotation)
    (hm : Marshals rateEvent (.struct [.scalar (.float x), .scalar (.string unit)]) (.ok own)) :
    unmarshalEvent rateEvent own rateEvent.type.zero = some (.struct [.scalar (.float y), .scalar (.string unit)], none) := by
  have := flat_event_reads rateEvent ⟨rfl, rfl⟩ [b!"Amount", b!"Unit"] [.float 64, .string] rfl (by decide) (by decide) rfl (by decide)
    [.float x, .string unit] rfl own hm [] [] (by simp) [.float y, .string unit] rfl (by
      intro i s x z h1 h2 h3
      match i with
      | 0 => cases h1; cases h2; cases h3; simp [parseScalar, Scalar.text, h]
      | 1 => cases h1; cases h2; cases h3; rfl) [.scalar (.float (.fin false 0)), .scalar (.string [])] rfl
  rw [List.append_nil] at this
  exact this

theorem perm_two {α : Type} {a b : α} {l : List α} (h : l.Perm [a, b]) : l = [a, b] ∨ l = [b, a] := by
  obtain ⟨x, y, rfl⟩ := List.length_eq_two.1 h.length_eq
  have hx : x ∈ [a, b] := h.mem_iff.1 (List.mem_cons_self ..)
  simp only [List.mem_cons, List.not_mem_nil, or_false] at hx
  rcases hx with rfl | rfl
  · left
    rw [List.perm_cons, List.perm_singleton] at h
    rw [h]
  · right
    have h' := h.trans (List.Perm.swap _ _ _)
    rw [List.perm_cons, List.perm_singleton] at h'
    rw [h']

end Appdash
