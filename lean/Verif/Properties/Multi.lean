import Verif.Proofs.Multi

/-!
# Property C36: `MultiStore` and `MultiQueryer`

There are `n` stores, whose answers are given by `r`: any function of the call and of all calls made before, to any of
the stores.  `w` are the calls made before.
-/

namespace Appdash

open Spec

/-- **C36** (`Collect`).  The span is offered to the stores in order, up to and including the first one that returns an
error, which is then returned; if none does, it is offered to all and nil is returned. -/
theorem multi_collect (r : Answers) (n : Nat) (id : SpanID) (as : List Annotation) (w : List MultiCall) :
    let call := fun i => MultiCall.collect i id as
    let answer := fun i => r.collect (call i) (w ++ callsUpTo call i)
    ((∀ i < n, answer i = none) ∧ multiCollect (recordings r n) id as w = (w ++ callsUpTo call n, none)) ∨
    ∃ k < n, (∀ i < k, answer i = none) ∧ answer k ≠ none ∧
      multiCollect (recordings r n) id as w = (w ++ callsUpTo call (k + 1), answer k) := by
  intro call answer
  rw [recordings_eq]
  have h0 : w ++ callsUpTo call 0 = w := by simp [callsUpTo]
  have := multiCollect_from r id as w n 0
  rw [h0] at this
  simp only [Nat.zero_add, Nat.zero_le, true_implies, true_and] at this
  rcases this with h | ⟨k, err, h2, h3, h4, h5⟩
  · exact Or.inl h
  · refine Or.inr ⟨k, h2, h3, ?_, ?_⟩
    · show r.collect _ _ ≠ none
      rw [h4]; simp
    · rw [h5]
      exact congrArg (Prod.mk _) h4.symm

/-- **C36** (`Trace`).  The stores are asked in order, up to and including the first one that does not answer "not
found".  Its answer is returned (without a trace if it is an error); if there is none, the answer is "not found". -/
theorem multi_trace (r : Answers) (n : Nat) (t : ID) (w : List MultiCall) :
    let call := fun i => MultiCall.trace i t
    let answer := fun i => r.trace (call i) (w ++ callsUpTo call i)
    ((∀ i < n, (answer i).2 = some .notFound) ∧
      multiTrace (recordings r n) t w = (w ++ callsUpTo call n, none, some .notFound)) ∨
    ∃ k < n, (∀ i < k, (answer i).2 = some .notFound) ∧ (answer k).2 ≠ some .notFound ∧
      multiTrace (recordings r n) t w =
        (w ++ callsUpTo call (k + 1), if (answer k).2 = none then answer k else (none, (answer k).2)) := by
  intro call answer
  rw [recordings_eq]
  have h0 : w ++ callsUpTo call 0 = w := by simp [callsUpTo]
  have := multiTrace_from r t w n 0
  rw [h0] at this
  simp only [Nat.zero_add, Nat.zero_le, true_implies, true_and] at this
  exact this

/-- **C36** (`Traces`, no errors).  If every queryer answers with traces `ts i` and without error, the result has no
error; it is a selection of these traces, in order, with no trace ID twice, and it contains for every trace ID the first
trace with that ID.  Each queryer is asked once, for all traces. -/
theorem multi_traces (r : Answers) (n : Nat) (opts : TracesOpts) (w : List MultiCall) (ts : Nat → List Tree)
    (h : ∀ i < n, r.traces (.traces i {}) (w ++ callsUpTo (.traces · {}) i) = ((ts i).map some, none)) :
    ∃ l, multiTraces (recordings r n) opts w = some (w ++ callsUpTo (.traces · {}) n, l, none) ∧
      l.Sublist ((List.range n).flatMap ts) ∧ (l.map (·.span.id.trace)).Nodup ∧
      ∀ t, l.find? (fun x => decide (x.span.id.trace = t)) =
        ((List.range n).flatMap ts).find? (fun x => decide (x.span.id.trace = t)) := by
  rw [recordings_eq]
  have h0 : w ++ callsUpTo (.traces · {}) 0 = w := by simp [callsUpTo]
  obtain ⟨u, l, U, e⟩ := multiTraces_from r w ts n 0 n (Nat.le_refl _) (fun i _ hi => h i (by omega))
    (union := []) (all := []) (seen := []) ⟨by simp, List.Sublist.refl _, by simp, fun _ => rfl⟩
  rw [h0] at e
  rw [List.nil_append, ← List.range_eq_range'] at U
  refine ⟨l, ?_, U.sub, U.nodup, U.find⟩
  unfold multiTraces
  rw [e]
  simp [recordingsFrom, multiTracesLoop]

/-- **C36** (`Traces`, errors).  If the queryers before the `k`th answer without error and the `k`th with an error, that
error is returned, without traces, and the queryers after it are not asked. -/
theorem multi_traces_error (r : Answers) (n k : Nat) (opts : TracesOpts) (w : List MultiCall) (ts : Nat → List Tree)
    (err : StoreErr) (hk : k < n)
    (h : ∀ i < k, r.traces (.traces i {}) (w ++ callsUpTo (.traces · {}) i) = ((ts i).map some, none))
    (he : (r.traces (.traces k {}) (w ++ callsUpTo (.traces · {}) k)).2 = some err) :
    multiTraces (recordings r n) opts w = some (w ++ callsUpTo (.traces · {}) (k + 1), [], some err) := by
  rw [recordings_eq]
  have h0 : w ++ callsUpTo (.traces · {}) 0 = w := by simp [callsUpTo]
  obtain ⟨u, l, U, e⟩ := multiTraces_from r w ts k 0 n (by omega) (fun i _ hi => h i (by omega))
    (union := []) (all := []) (seen := []) ⟨by simp, List.Sublist.refl _, by simp, fun _ => rfl⟩
  rw [h0] at e
  unfold multiTraces
  rw [e]
  obtain ⟨j, hj⟩ : ∃ j, n - k = j + 1 := ⟨n - k - 1, by omega⟩
  rw [hj, recordingsFrom_succ, Nat.zero_add, callsUpTo_succ, ← List.append_assoc]
  cases hc : r.traces (.traces k {}) (w ++ callsUpTo (.traces · {}) k) with
  | mk x y =>
    rw [hc] at he
    simp only at he
    subst he
    simp only [multiTracesLoop, recording, hc]

/-- Three stores, of which the second returns errors; the hypotheses are met with one trace in the first. -/
example : ∃ (r : Answers) (ts : Nat → List Tree),
    (∀ i < 1, r.traces (.traces i {}) ([] ++ callsUpTo (.traces · {}) i) = ((ts i).map some, none)) ∧
    (r.traces (.traces 1 {}) ([] ++ callsUpTo (.traces · {}) 1)).2 = some (.other [1]) ∧ ts 0 ≠ [] :=
  ⟨⟨fun _ _ => none, fun _ _ => (none, some .notFound),
    fun c _ => match c with | .traces 0 _ => ([some (.node ⟨⟨1, 1, 0⟩, []⟩ [])], none) | _ => ([], some (.other [1]))⟩,
   fun _ => [.node ⟨⟨1, 1, 0⟩, []⟩ []], by
    intro i hi
    obtain rfl : i = 0 := by omega
    rfl, rfl, by simp⟩

/-- Two queryers that both have trace 1: the first one's is returned. -/
example :
    let a : Tree := .node ⟨⟨1, 1, 0⟩, []⟩ []
    let b : Tree := .node ⟨⟨1, 2, 0⟩, []⟩ []
    let c : Tree := .node ⟨⟨2, 2, 0⟩, []⟩ []
    let r : Answers := ⟨fun _ _ => none, fun _ _ => (none, none),
      fun q _ => match q with | .traces 0 _ => ([some a], none) | _ => ([some b, some c], none)⟩
    (multiTraces (recordings r 2) {} []).map (fun x => (x.2.1.map (·.span.id.span), x.2.2)) =
      some ([1, 2], none) := by decide

end Appdash
