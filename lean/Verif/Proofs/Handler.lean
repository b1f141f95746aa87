import Verif.Spec.Handler
import Verif.Proofs.Base64
import Verif.Proofs.Http

/-! # Web handlers and basic authentication -/

namespace Appdash

open Spec

theorem ct_fold (l : List (UInt8 × UInt8)) : ∀ v : UInt8,
    l.foldl (fun v p => v ||| (p.1 ^^^ p.2)) v = 0 ↔ v = 0 ∧ ∀ p ∈ l, p.1 = p.2 := by
  induction l with
  | nil => intro v; simp
  | cons p l ih =>
    intro v
    rw [List.foldl_cons, ih, UInt8.or_eq_zero_iff, UInt8.xor_eq_zero_iff]
    simp [and_assoc]

theorem zip_all_eq : ∀ x y : Bytes, x.length = y.length → ((∀ p ∈ x.zip y, p.1 = p.2) ↔ x = y)
  | [], [], _ => by simp
  | [], _ :: _, h => by simp at h
  | _ :: _, [], h => by simp at h
  | a :: x, b :: y, h => by
    have := zip_all_eq x y (by simpa using h)
    simp only [List.zip_cons_cons, List.mem_cons, forall_eq_or_imp, this, List.cons.injEq]

theorem constantTimeCompare_iff (x y : Bytes) : constantTimeCompare x y = true ↔ x = y := by
  unfold constantTimeCompare
  by_cases h : x.length = y.length
  · have : ¬ x.length ≠ y.length := fun h' => h' h
    rw [if_neg this, decide_eq_true_eq, ct_fold, zip_all_eq x y h]
    simp
  · rw [if_pos h]
    constructor
    · intro h'; cases h'
    · rintro rfl; exact absurd rfl h

theorem cutColon_some : ∀ (s a b : Bytes), cutColon s = some (a, b) → s = a ++ 58 :: b ∧ 58 ∉ a
  | [], _, _, h => by simp [cutColon] at h
  | c :: s, a, b, h => by
    unfold cutColon at h
    split at h
    · rename_i e
      simp only [Option.some.injEq, Prod.mk.injEq] at h
      obtain ⟨rfl, rfl⟩ := h
      simp [e]
    · rename_i e
      split at h
      · cases h
      · rename_i a' b' hc
        simp only [Option.some.injEq, Prod.mk.injEq] at h
        obtain ⟨rfl, rfl⟩ := h
        obtain ⟨h1, h2⟩ := cutColon_some s a' b' hc
        refine ⟨by simp [h1], ?_⟩
        have e' : ¬ (58 : UInt8) = c := fun h => e h.symm
        simp [h2, e']

theorem cutColon_none : ∀ s : Bytes, cutColon s = none ↔ 58 ∉ s
  | [] => by simp [cutColon]
  | c :: s => by
    unfold cutColon
    by_cases e : c = 58
    · simp [e]
    · have e' : ¬ (58 : UInt8) = c := fun h => e h.symm
      simp only [e, if_false]
      have := cutColon_none s
      cases h : cutColon s with
      | none => simp [e', this.1 h]
      | some p =>
        have h2 : 58 ∈ s := by
          by_contra h2
          rw [this.2 h2] at h
          cases h
        simp [h2]

theorem cutColon_append (a b : Bytes) (h : 58 ∉ a) : cutColon (a ++ 58 :: b) = some (a, b) := by
  induction a with
  | nil => simp [cutColon]
  | cons c a ih =>
    have h1 : ¬ c = 58 := by intro e; exact h (by simp [e])
    rw [List.cons_append, cutColon, if_neg h1, ih (fun h' => h (by simp [h']))]

theorem httpError_new (w : WebWriter) (hs : w.sent = none) (hb : w.body = []) (msg : Bytes) (code : Int)
    (hv : validStatus code = true) (ha : bodyAllowed code = true) :
    ∃ w', httpError w msg code = some w' ∧
      w'.received = (code, (w.header.put b!"Content-Type" b!"text/plain; charset=utf-8").put
        b!"X-Content-Type-Options" b!"nosniff", msg ++ [10]) := by
  simp only [httpError, WebWriter.writeHeader, hs, hv, if_true]
  exact ⟨_, rfl, by simp [WebWriter.received, WebWriter.write, ha, hb]⟩

theorem buffer_eq (ops : List PageOp) : ∀ rb : ResponseBuffer,
    let r := ops.foldl ResponseBuffer.step rb
    r.buf = rb.buf ++ pageBody ops ∧ r.status = pageStatus rb.status ops ∧
      r.header.getD [] = pageHeader (rb.header.getD []) ops := by
  induction ops with
  | nil => intro rb; simp [pageBody, pageStatus, pageHeader]
  | cons op ops ih =>
    intro rb
    obtain ⟨h1, h2, h3⟩ := ih (rb.step op)
    cases op with
    | write b => exact ⟨by rw [List.foldl_cons, h1]; simp [ResponseBuffer.step, pageBody], h2, h3⟩
    | writeHeader c => exact ⟨h1, h2, h3⟩
    | editHeader f => exact ⟨h1, h2, h3⟩

theorem get_none_of_not_mem {V : Type} (l : AMap Bytes V) (k : Bytes) (h : k ∉ l.keys) : AMap.get l k = none := by
  induction l with
  | nil => rfl
  | cons p l ih =>
    obtain ⟨a, b⟩ := p
    simp only [AMap.keys, List.map_cons, List.mem_cons, not_or] at h
    have : ¬ a = k := fun e => h.1 e.symm
    simp only [AMap.get, this, if_false]
    exact ih h.2

theorem copyHeader_get (l : List (Bytes × List Bytes)) : ∀ (h : Header) (k : Bytes), (AMap.keys l).Nodup →
    AMap.get (copyHeader l h) k = (match AMap.get l k with | some v => some v | none => AMap.get h k) := by
  induction l with
  | nil => intros; rfl
  | cons p l ih =>
    obtain ⟨a, b⟩ := p
    intro h k hn
    simp only [AMap.keys, List.map_cons, List.nodup_cons] at hn
    rw [copyHeader, ih _ _ hn.2]
    by_cases e : a = k
    · subst e
      have : AMap.get l a = none := get_none_of_not_mem l a hn.1
      simp [AMap.get, this]
    · simp only [AMap.get, e, if_false]
      rw [AMap.get_set_ne _ _ e]

end Appdash
