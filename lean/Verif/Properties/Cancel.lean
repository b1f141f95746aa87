import Verif.Proofs.Cancel

/-!
# C88 and C89: cancelling requests of the HTTP client transport
-/

namespace Appdash

open Spec

/-- Cancelling a request whose copy is registered. -/
theorem cancel_held {b : Bool} {acts rest : List TransportAct} (hn : NoReuse b acts) {s s' : TransportState}
    (h : TransportState.new.run b acts = some s) {k : Nat} {t : Trip} (hk : s.trips k = some t) (ht : t.Held) {j : Nat}
    (h' : TransportState.new.run b (acts ++ .cancel j t.original :: rest) = some s') :
    ∃ x, s'.cancels j = some x ∧ forwarded j s'.log = if x.done && b then [t.clone] else [] := by
  have hreg := held_registered hn h k _ hk ht
  have I := (TInv.new b).run h'
  rw [TransportState.run_append, h] at h'
  simp only [Option.bind, TransportState.run, TransportState.step] at h'
  cases hj : s.cancels j with
  | some y => simp [hj] at h'
  | none =>
    simp only [hj, hreg] at h'
    obtain ⟨d, hd⟩ := found_stays (j := j) (o := t.original) (f := some t.clone) ⟨false, by simp [updateAt]⟩ h'
    refine ⟨_, hd, ?_⟩
    rw [I.fwd j, hd]
    cases d <;> cases b <;> rfl

/-- **C88** (cancellation arrives).  Suppose no request is sent twice at once.  Cancelling a request while the underlying transport
is at work on it makes the underlying transport, if it can cancel at all, cancel once, with the very request that it was given
for this round trip. -/
theorem cancel_reaches {b : Bool} {acts rest : List TransportAct} (hn : NoReuse b acts) {s s' : TransportState}
    (h : TransportState.new.run b acts = some s) {k o c : Nat} (hk : s.trips k = some ⟨o, c, .inside⟩) {j : Nat}
    (h' : TransportState.new.run b (acts ++ .cancel j o :: rest) = some s') :
    .roundTrip k c ∈ s.log ∧ ∃ x, s'.cancels j = some x ∧ forwarded j s'.log = if x.done && b then [c] else [] :=
  ⟨inside_logged h hk, cancel_held hn h hk (.inr (.inl rfl)) h'⟩

/-- **C88** (nothing else is cancelled).  The underlying transport is told to cancel only by a call of `CancelRequest` during
whose look-up a round trip of the same request was running, and only with the copy that was made for that round trip. -/
theorem cancel_only_running {b : Bool} {acts : List TransportAct} {s : TransportState}
    (h : TransportState.new.run b acts = some s) {j c : Nat} (hc : .cancel j c ∈ s.log) :
    b = true ∧ ∃ pre o post s0 k t, acts = pre ++ .cancel j o :: post ∧ TransportState.new.run b pre = some s0 ∧
      s0.trips k = some t ∧ t.original = o ∧ t.clone = c ∧ Trip.Running t := by
  have I := (TInv.new b).run h
  rw [← forwarded_mem, I.fwd j] at hc
  split at hc
  · rename_i x o c' hj
    cases b with
    | false => simp at hc
    | true =>
      simp only [if_true, List.mem_singleton] at hc
      subst hc
      obtain ⟨pre, post, s0, e, h1, h2⟩ := found_origin h hj
      obtain ⟨k, t, h3, h4, h5, h6⟩ := ((TInv.new true).run h1).entry _ _ h2
      refine ⟨rfl, pre, o, post, s0, k, t, e, h1, h3, h4, h5, ?_⟩
      rcases h6 with h | h | h <;> simp [Trip.Running, h]
  · cases hc

/-- **C88** (idle requests).  Cancelling a request without a running round trip does nothing. -/
theorem cancel_idle {b : Bool} {acts rest : List TransportAct} {s s' : TransportState}
    (h : TransportState.new.run b acts = some s) {o : Nat}
    (hk : ∀ k t, s.trips k = some t → t.original = o → ¬ Trip.Running t) {j : Nat}
    (h' : TransportState.new.run b (acts ++ .cancel j o :: rest) = some s') : forwarded j s'.log = [] := by
  have hno : s.requests.get o = none := by
    cases hg : s.requests.get o with
    | none => rfl
    | some c =>
      obtain ⟨k, t, h1, h2, -, h3⟩ := ((TInv.new b).run h).entry _ _ hg
      refine absurd ?_ (hk k t h1 h2)
      rcases h3 with h | h | h <;> simp [Trip.Running, h]
  have I := (TInv.new b).run h'
  rw [TransportState.run_append, h] at h'
  simp only [Option.bind, TransportState.run, TransportState.step] at h'
  cases hj : s.cancels j with
  | some y => simp [hj] at h'
  | none =>
    simp only [hj, hno] at h'
    obtain ⟨d, hd⟩ := found_stays (j := j) (o := o) (f := none) ⟨true, by simp [updateAt]⟩ h'
    rw [I.fwd j, hd]

/-- **C88** (no leak).  When all calls of `RoundTrip` have returned, no request is remembered, whether or not requests were
reused. -/
theorem no_request_leak {b : Bool} {acts : List TransportAct} {s : TransportState} (h : TransportState.new.run b acts = some s)
    (hd : ∀ k t, s.trips k = some t → ¬ Trip.Running t) : s.requests = [] := by
  have I := (TInv.new b).run h
  apply AMap.eq_nil_of_get
  intro o
  cases hg : s.requests.get o with
  | none => rfl
  | some c =>
    obtain ⟨k, t, h1, -, -, h2⟩ := I.entry _ _ hg
    refine absurd ?_ (hd k t h1)
    rcases h2 with h | h | h <;> simp [Trip.Running, h]

/-- **C88** (own copies).  The underlying transport never gets the caller's request, nor the same request for two round trips. -/
theorem copies_distinct {b : Bool} {acts : List TransportAct} {s : TransportState} (h : TransportState.new.run b acts = some s)
    {k k' c : Nat} (hc : .roundTrip k c ∈ s.log) (hc' : .roundTrip k' c ∈ s.log) :
    k = k' ∧ ∃ t, s.trips k = some t ∧ t.original ≠ c := by
  have I := (TInv.new b).run h
  obtain ⟨t, h1, h2⟩ := I.entered k c hc
  obtain ⟨t', h1', h2'⟩ := I.entered k' c hc'
  have := I.fresh k t h1
  exact ⟨I.uniq k k' t t' h1 h1' (h2.trans h2'.symm), t, h1, by omega⟩

/-- Two goroutines send the requests 10 and 20, and request 10 again later; all are cancelled at some time. -/
def sampleCancels : List TransportAct :=
  [.start 0 10, .register 0, .start 1 20, .enter 0, .register 1, .cancel 0 10, .enter 1, .forward 0, .leave 0, .cancel 1 20, .finish 0,
    .leave 1, .finish 1, .forward 1, .cancel 2 10, .start 2 10, .register 2, .enter 2, .cancel 3 10]

example : (TransportState.new.run true sampleCancels).map (fun s => (s.requests, s.log, s.cancels 2, s.trips 2, s.cancels 3)) =
    some ([(10, 22)], [.roundTrip 0 11, .roundTrip 1 21, .cancel 0 11, .cancel 1 21, .roundTrip 2 22], some ⟨10, none, true⟩,
      some ⟨10, 22, .inside⟩, some ⟨10, some 22, false⟩) := rfl

/-- It meets the hypotheses of `cancel_reaches` (for the last cancellation) and of `cancel_idle` (for the one before). -/
example : NoReuse true sampleCancels := noReuse_of (n := 3) (by decide)

/-- **C88** (why requests must not be reused).  Two goroutines send the same request at once.  Cancelling it while both are at work
cancels only the second; once the first has returned, cancelling does nothing although the second is at work. -/
theorem reuse_confuses : ∃ acts s, TransportState.new.run true acts = some s ∧
    s.trips 1 = some ⟨7, 9, .inside⟩ ∧ s.cancels 1 = some ⟨7, none, true⟩ ∧
    s.log = [.roundTrip 0 8, .roundTrip 1 9, .cancel 0 9] :=
  ⟨[.start 0 7, .start 1 7, .register 0, .register 1, .enter 0, .enter 1, .cancel 0 7, .forward 0, .leave 0, .finish 0, .cancel 1 7],
    _, rfl, by decide, by decide, by decide⟩

/-- **C89**, full statement: cancelling a request after its `RoundTrip` returned without another round trip of it, as net/http
asks ("CancelRequest should only be called after RoundTrip has returned"), reaches an underlying transport that can cancel. -/
def CancelAfterReturn : Prop :=
  ∀ (acts rest : List TransportAct), NoReuse true acts → ∀ (s s' : TransportState), TransportState.new.run true acts = some s →
    ∀ k o c, s.trips k = some ⟨o, c, .done⟩ → (∀ k' t, s.trips k' = some t → t.original = o → k' = k) → ∀ j,
      TransportState.new.run true (acts ++ .cancel j o :: rest) = some s' → s'.cancels j = some ⟨o, some c, true⟩ ∧ .cancel j c ∈ s'.log

/-- **C89**, the part that holds: when the underlying transport has returned and `RoundTrip` is about to return, cancelling still
reaches the underlying transport. -/
theorem cancel_before_return_partial {acts rest : List TransportAct} (hn : NoReuse true acts) {s s' : TransportState}
    (h : TransportState.new.run true acts = some s) {k o c : Nat} (hk : s.trips k = some ⟨o, c, .left⟩) {j : Nat}
    (h' : TransportState.new.run true (acts ++ .cancel j o :: rest) = some s') :
    ∃ x, s'.cancels j = some x ∧ (x.done = true → .cancel j c ∈ s'.log) := by
  obtain ⟨x, h1, h2⟩ := cancel_held hn h hk (.inr (.inr rfl)) h'
  refine ⟨x, h1, fun hx => ?_⟩
  rw [← forwarded_mem, h2, hx]
  simp

/-- **C89** is false of the code: after the return nothing is ever forwarded. -/
theorem cancel_after_return_ignored {b : Bool} {acts rest : List TransportAct} {s s' : TransportState}
    (h : TransportState.new.run b acts = some s) {k o c : Nat} (hk : s.trips k = some ⟨o, c, .done⟩)
    (hu : ∀ k' t, s.trips k' = some t → t.original = o → k' = k) {j : Nat}
    (h' : TransportState.new.run b (acts ++ .cancel j o :: rest) = some s') : ∀ d, .cancel j d ∉ s'.log := by
  have := cancel_idle h (o := o) (by
    intro k' t h1 h2
    have e := hu k' t h1 h2
    subst e
    rw [hk] at h1
    injection h1 with h1
    subst h1
    exact fun h => h rfl) h'
  intro d hd
  rw [← forwarded_mem, this] at hd
  cases hd

theorem cancel_after_return_lost : ¬ CancelAfterReturn := by
  intro H
  have := (H [.start 0 1, .register 0, .enter 0, .leave 0, .finish 0] [] (noReuse_of (n := 1) (by decide)) _ _ rfl 0 1 2 rfl (by
    intro k' t h1 h2
    rcases trips_started (b := true) (s := .new) (acts := [.start 0 1, .register 0, .enter 0, .leave 0, .finish 0]) rfl
      (by rw [h1]; simp) with h | ⟨o, h⟩
    · exact absurd rfl h
    · simp at h
      exact h.1) 0 rfl).2
  revert this
  decide

end Appdash
