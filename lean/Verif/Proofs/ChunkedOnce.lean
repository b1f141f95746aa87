import Verif.Proofs.Chunked

/-! # A span collected once is delivered as it was collected -/

namespace Appdash.Chunked

/-- The calls held by running flushes. -/
def heldCalls (s : State) : List Delivery := s.flushes.flatMap fun f => f.remaining

theorem count_enqueue_once (m : AMap SpanID (List Annotation)) (d x : Delivery) (h : x.1 = d.1 → m.get d.1 = none) :
    (enqueue m d).count x = m.count x + [d].count x := by
  unfold enqueue
  cases hg : m.get d.1 with
  | none =>
    simp only [AMap.set_none hg, List.count_append]
  | some p =>
    have hx : x.1 ≠ d.1 := fun e => by rw [h e] at hg; cases hg
    obtain ⟨pre, post, hm, -, hs⟩ := AMap.set_some hg
    have hd : [d].count x = 0 := List.count_eq_zero.2 fun hm => hx (by rw [List.mem_singleton.1 hm])
    simp only [hd, Nat.add_zero]
    split
    · rw [hs, hm]
      have a : (d.1, p ++ d.2) ≠ x := fun e => hx (by rw [← e])
      have b : (d.1, p) ≠ x := fun e => hx (by rw [← e])
      simp [List.count_append, List.count_cons, a, b]
    · rfl

theorem get_none_of_not_mem {m : AMap SpanID (List Annotation)} {k : SpanID} (h : ∀ v, (k, v) ∉ m) : m.get k = none := by
  cases hg : m.get k with
  | none => rfl
  | some p =>
    obtain ⟨pre, post, hm, -⟩ := AMap.set_some hg
    exact absurd (by rw [hm]; simp) (h p)

/-- A span for which at most one call was accepted: the call is in exactly one place. -/
theorem once_conserved {cfg : Cfg} {s : State} (h : Reachable cfg s) (id : SpanID)
    (h1 : ((acceptedCalls s.history).filter fun d => d.1 = id).length ≤ 1) (x : Delivery) (hx : x.1 = id) :
    (acceptedCalls s.history).count x = s.pending.count x + (heldCalls s).count x +
      (deliveredCalls s.history).count x + (droppedCalls s.history).count x := by
  induction h generalizing x with
  | init => rfl
  | @step s s' _ hs ih =>
    cases hs with
    | collect d =>
      cases collect_cases cfg s d with
      | refused _ _ h3 =>
        rw [h3] at h1 ⊢
        simp only [acceptedCalls, deliveredCalls, droppedCalls, heldCalls, List.filterMap_append, List.filterMap_cons,
          List.filterMap_nil, List.flatMap_append, List.flatMap_cons, List.flatMap_nil, List.append_nil] at ih h1 ⊢
        exact ih h1 x hx
      | dropped h1' h2 h3 h4 h5 h6 h7 h8 h9 =>
        rw [h7] at h1
        simp only [acceptedCalls, deliveredCalls, droppedCalls, heldCalls, h5, h7, h9, List.filterMap_append, List.filterMap_cons,
          List.filterMap_nil, List.flatMap_append, List.flatMap_cons, List.flatMap_nil, List.append_nil, List.count_append,
          List.count_nil] at ih h1 ⊢
        have := ih h1 x hx
        omega
      | queued h1' h2 h3 h4 h5 h6 h7 h8 =>
        rw [h6] at h1
        have ha : acceptedCalls (s.history ++ [.collect d .queued s.lastErr]) = acceptedCalls s.history ++ [d] := by
          simp [acceptedCalls]
        rw [ha, List.filter_append, List.length_append] at h1
        have i1 := ih (by omega)
        have hnone : x.1 = d.1 → s.pending.get d.1 = none := by
          intro e
          refine get_none_of_not_mem fun v hv => ?_
          have hd : d.1 = id := by rw [← e, hx]
          have := i1 (d.1, v) hd
          have hp : 0 < s.pending.count (d.1, v) := List.count_pos_iff.2 hv
          have hm : (d.1, v) ∈ acceptedCalls s.history := List.count_pos_iff.1 (by omega)
          have : (d.1, v) ∈ (acceptedCalls s.history).filter fun d => d.1 = id := List.mem_filter.2 ⟨hm, by simpa using hd⟩
          have := List.length_pos_of_mem this
          have hd2 : ([d].filter fun d => d.1 = id).length = 1 := by simp [hd]
          omega
        have := i1 x hx
        rw [h6, ha, h4, count_enqueue_once _ _ _ hnone]
        simp only [deliveredCalls, droppedCalls, heldCalls, h8, List.filterMap_append, List.filterMap_cons,
          List.filterMap_nil, List.flatMap_append, List.flatMap_cons, List.flatMap_nil, List.append_nil, List.count_append]
          at this ⊢
        omega
    | flush =>
      simp only [State.flushBegin, acceptedCalls, deliveredCalls, droppedCalls, heldCalls, List.filterMap_append, List.filterMap_cons,
          List.filterMap_nil, List.flatMap_append, List.flatMap_cons, List.flatMap_nil, List.append_nil, List.count_append,
        List.count_nil] at ih h1 ⊢
      have := ih h1 x hx
      omega
    | tick _ =>
      simp only [State.flushBegin, acceptedCalls, deliveredCalls, droppedCalls, heldCalls, List.filterMap_append, List.filterMap_cons,
          List.filterMap_nil, List.flatMap_append, List.flatMap_cons, List.flatMap_nil, List.append_nil, List.count_append,
        List.count_nil] at ih h1 ⊢
      have := ih h1 x hx
      omega
    | send f pre post d bef aft err hf hr =>
      simp only [acceptedCalls, deliveredCalls, droppedCalls, heldCalls, hf, hr, List.filterMap_append, List.filterMap_cons,
          List.filterMap_nil, List.flatMap_append, List.flatMap_cons, List.flatMap_nil, List.append_nil, List.count_append,
        List.count_nil, List.count_cons] at ih h1 ⊢
      have := ih h1 x hx
      omega
    | sendTimeout f pre post d bef aft err _ hf hr =>
      simp only [acceptedCalls, deliveredCalls, droppedCalls, heldCalls, hf, hr, List.filterMap_append, List.filterMap_cons,
          List.filterMap_nil, List.flatMap_append, List.flatMap_cons, List.flatMap_nil, List.append_nil, List.count_append,
        List.count_nil, List.count_cons] at ih h1 ⊢
      have := ih h1 x hx
      omega
    | flushEnd f pre post hf hr _ =>
      simp only [acceptedCalls, deliveredCalls, droppedCalls, heldCalls, hf, hr, List.filterMap_append, List.filterMap_cons,
          List.filterMap_nil, List.flatMap_append, List.flatMap_cons, List.flatMap_nil, List.append_nil, List.count_append,
        List.count_nil] at ih h1 ⊢
      have := ih h1 x hx
      omega
    | bgFlushEnd f pre post hf hr _ =>
      simp only [acceptedCalls, deliveredCalls, droppedCalls, heldCalls, hf, hr, List.filterMap_append, List.filterMap_cons,
          List.filterMap_nil, List.flatMap_append, List.flatMap_cons, List.flatMap_nil, List.append_nil, List.count_append,
        List.count_nil] at ih h1 ⊢
      have := ih h1 x hx
      omega
    | store e _ =>
      simp only [acceptedCalls, deliveredCalls, droppedCalls, heldCalls, List.filterMap_append, List.filterMap_cons,
          List.filterMap_nil, List.flatMap_append, List.flatMap_cons, List.flatMap_nil, List.append_nil] at ih h1 ⊢
      exact ih h1 x hx
    | exit _ _ => exact ih h1 x hx
    | stop =>
      revert h1
      simp only [State.stop]
      split <;>
      · intro h1
        simp only [acceptedCalls, deliveredCalls, droppedCalls, heldCalls, List.filterMap_append, List.filterMap_cons,
          List.filterMap_nil, List.flatMap_append, List.flatMap_cons, List.flatMap_nil, List.append_nil] at ih h1 ⊢
        exact ih h1 x hx

/-- If everything has been handed on and nothing was dropped, the deliveries for a trace whose spans were collected once are the accepted
calls. -/
theorem once_delivered {cfg : Cfg} {s : State} (h : Reachable cfg s) (hq : s.pending = [])
    (hf : ∀ F ∈ s.flushes, F.remaining = []) (hd : droppedCalls s.history = []) (t : ID)
    (h1 : (((acceptedCalls s.history).filter fun d => d.1.trace = t).map Prod.fst).Nodup) :
    ((deliveredCalls s.history).filter fun d => d.1.trace = t).Perm ((acceptedCalls s.history).filter fun d => d.1.trace = t) := by
  rw [List.perm_iff_count]
  intro x
  by_cases hx : x.1.trace = t
  · rw [List.count_filter (by simpa using hx), List.count_filter (by simpa using hx)]
    have hh : heldCalls s = [] := List.flatMap_eq_nil_iff.2 hf
    have := once_conserved h x.1 ?_ x rfl
    · rw [this, hq, hh, hd]; simp
    · have e : ((acceptedCalls s.history).filter fun d => d.1 = x.1) =
          ((acceptedCalls s.history).filter fun d => d.1.trace = t).filter fun d => d.1 = x.1 := by
        rw [List.filter_filter]
        refine List.filter_congr fun d _ => ?_
        by_cases hd : d.1 = x.1 <;> simp [hd, hx]
      rw [e]
      generalize ((acceptedCalls s.history).filter fun d => d.1.trace = t) = l at h1
      have : (l.filter fun d => d.1 = x.1).length = (l.map Prod.fst).count x.1 := by
        rw [List.count_eq_countP, List.countP_map, List.countP_eq_length_filter]
        congr 1
      rw [this]
      exact List.nodup_iff_count.1 h1 _
  · rw [List.count_eq_zero.2, List.count_eq_zero.2] <;>
    · intro hm
      exact hx (by simpa using (List.mem_filter.1 hm).2)

end Appdash.Chunked
