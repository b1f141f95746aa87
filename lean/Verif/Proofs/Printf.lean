import Verif.Spec.Printf
import Verif.Properties.Identifiers

/-!
# Lemmas about `fmt.Sprintf` and comments
-/

namespace Appdash

open Spec

theorem sprintf_lit {pre : Bytes} (h : 37 ∉ pre) (f : Bytes) (args : List Bytes) :
    sprintf (pre ++ f) args = (sprintf f args).map (pre ++ ·) := by
  induction pre with
  | nil => cases h : sprintf f args <;> simp [h]
  | cons c pre ih =>
    have hc : c ≠ 37 := fun e => h (by simp [e])
    have ih := ih fun hm => h (List.mem_cons_of_mem _ hm)
    have : sprintf (c :: (pre ++ f)) args = (sprintf (pre ++ f) args).map (c :: ·) := by
      rw [sprintf]
      · intro e; exact absurd e hc
      · intro v f' e; exact absurd e hc
    rw [List.cons_append, this, ih]
    cases sprintf f args <;> simp

theorem sprintf_s (f a : Bytes) (args : List Bytes) :
    sprintf (b!"%s" ++ f) (a :: args) = (sprintf f args).map (a ++ ·) := by
  show sprintf (37 :: 115 :: f) _ = _
  rw [sprintf]; simp

theorem spanText_byte (id : SpanID) {c : UInt8} (h : c ∈ id.toText) : c = 47 ∨ IsLowerHex c := by
  have hx : ∀ i : ID, c ∈ i.toText → IsLowerHex c := fun i hi => (id_text_roundtrip i).2.2.1 c hi
  unfold SpanID.toText spanIDDelimiter at h
  split at h <;> simp only [List.mem_append, List.mem_singleton] at h <;> grind


theorem spanText_last (id : SpanID) : ∃ s c, id.toText = s ++ [c] ∧ c ≠ 47 := by
  have hx : ∀ i : ID, ∃ s c, i.toText = s ++ [c] ∧ c ≠ 47 := by
    intro i
    have h := id_text_roundtrip i
    have hne : i.toText ≠ [] := by intro e; rw [e] at h; simp at h
    refine ⟨_, _, (List.dropLast_concat_getLast hne).symm, fun e => ?_⟩
    have := h.2.2.1 47 (e ▸ List.getLast_mem hne)
    revert this
    unfold IsLowerHex; decide
  unfold SpanID.toText
  split
  · obtain ⟨s, c, h, hc⟩ := hx id.span
    exact ⟨_, c, by rw [h, ← List.append_assoc], hc⟩
  · obtain ⟨s, c, h, hc⟩ := hx id.parent
    exact ⟨_, c, by rw [h, ← List.append_assoc], hc⟩

theorem commentEnd_body {body : Bytes} (h : 42 ∉ body) (r : Bytes) : commentEnd (body ++ 42 :: 47 :: r) = some r := by
  induction body with
  | nil => rfl
  | cons c body ih =>
    have hc : c ≠ 42 := fun e => h (by simp [e])
    rw [List.cons_append, commentEnd]
    · exact ih fun hm => h (List.mem_cons_of_mem _ hm)
    · intro r' e; exact absurd e hc

theorem nestedEnd_body {body : Bytes} (h : 42 ∉ body) (hl : body.getLast? ≠ some 47) (r : Bytes) :
    nestedEnd 0 (body ++ 42 :: 47 :: r) = some r := by
  induction body with
  | nil => rfl
  | cons c body ih =>
    have hc : c ≠ 42 := fun e => h (by simp [e])
    have hb : 42 ∉ body := fun hm => h (List.mem_cons_of_mem _ hm)
    rw [List.cons_append, nestedEnd]
    · cases body with
      | nil => rfl
      | cons d body => exact ih hb (by simpa using hl)
    all_goals intros
    all_goals try contradiction
    next r' e1 e2 =>
      cases body with
      | nil => exact hl (by simp [e1])
      | cons d body => injection e2 with e2; exact hb (by simp [e2])

theorem takeWhile_body {body : Bytes} (h : 42 ∉ body) (r : Bytes) : (body ++ 42 :: r).takeWhile (· ≠ 42) = body := by
  induction body with
  | nil => rfl
  | cons c body ih =>
    have hc : c ≠ 42 := fun e => h (by simp [e])
    rw [List.cons_append, List.takeWhile_cons_of_pos (by simpa using hc), ih fun hm => h (List.mem_cons_of_mem _ hm)]

theorem statement_body (nested : Bool) {body : Bytes} (h : 42 ∉ body) (hl : nested = true → body.getLast? ≠ some 47) (r : Bytes) :
    statement nested (b!"/*" ++ body ++ b!"*/" ++ r) = some r := by
  show statement nested (47 :: 42 :: (body ++ [42, 47] ++ r)) = _
  rw [statement, List.append_assoc]
  cases nested with
  | false => exact commentEnd_body h r
  | true => exact nestedEnd_body h (hl rfl) r

end Appdash
