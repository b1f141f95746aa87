import Verif.Proofs.ChunkedFlush

/-! # Facts about every event of a history -/

namespace Appdash.Chunked

/-- What is true of an event given the events before it. -/
def EventOK (h : List Event) : Event → Prop
  | .collect _ .queued err => .stop ∉ h ∧ err = unreported h
  | .collect _ (.dropped _) err => .stop ∉ h ∧ err = some .queueDropped
  | .collect _ .refused err => .stop ∈ h ∧ err = some .stopped
  | .stored e => ∃ f, .flushEnd f (some e) ∈ h
  | _ => True

/-- The background goroutine's state matches the history, and so does `stopped`. -/
structure HistInv (s : State) : Prop where
  events : ∀ h1 e h2, s.history = h1 ++ e :: h2 → EventOK h1 e
  stopped : s.stopped = true ↔ .stop ∈ s.history
  failed : ∀ e, s.bg = .failed e → ∃ f, .flushEnd f (some e) ∈ s.history
  reported : (reportedErrors s.history ++ s.lastErr.toList).Sublist (storedErrors s.history)

theorem events_snoc {h : List Event} (hh : ∀ h1 e h2, h = h1 ++ e :: h2 → EventOK h1 e) {x : Event} (hx : EventOK h x) :
    ∀ h1 e h2, h ++ [x] = h1 ++ e :: h2 → EventOK h1 e := by
  intro h1 e h2 he
  rcases List.eq_nil_or_concat h2 with rfl | ⟨l, y, rfl⟩
  · rw [show h1 ++ [e] = h1.concat e from by simp, show h ++ [x] = h.concat x from by simp] at he
    obtain ⟨rfl, rfl⟩ := List.of_concat_eq_concat he
    exact hx
  · rw [show h1 ++ e :: l.concat y = (h1 ++ e :: l).concat y from by simp, show h ++ [x] = h.concat x from by simp] at he
    obtain ⟨he, -⟩ := List.of_concat_eq_concat he
    exact hh h1 e l he

/-- A step that appends one event and leaves `stopped`, `lastErr` alone. -/
theorem HistInv.snoc {s s' : State} (h : HistInv s) {x : Event} (hh : s'.history = s.history ++ [x])
    (hx : EventOK s.history x) (hst : s'.stopped = true ↔ s.stopped = true ∨ x = .stop)
    (hf : ∀ e, s'.bg = .failed e → s.bg = .failed e ∨ ∃ f, x = .flushEnd f (some e))
    (hr : (reportedErrors [x] ++ s'.lastErr.toList).Sublist (s.lastErr.toList ++ storedErrors [x])) : HistInv s' := by
  refine ⟨by rw [hh]; exact events_snoc h.events hx, ?_, ?_, ?_⟩
  · rw [hst, hh, List.mem_append, List.mem_singleton, h.stopped, eq_comm (a := x)]
  · intro e he
    rw [hh]
    rcases hf e he with hb | ⟨f, hb⟩
    · obtain ⟨f, hf⟩ := h.failed e hb
      exact ⟨f, by simp [hf]⟩
    · exact ⟨f, by simp [hb]⟩
  · rw [hh]
    have e1 : reportedErrors (s.history ++ [x]) = reportedErrors s.history ++ reportedErrors [x] := by simp [reportedErrors]
    have e2 : storedErrors (s.history ++ [x]) = storedErrors s.history ++ storedErrors [x] := by simp [storedErrors]
    rw [e1, e2, List.append_assoc]
    refine (List.Sublist.append_left hr _).trans ?_
    rw [← List.append_assoc]
    exact List.Sublist.append_right h.reported _

theorem hist_inv {cfg : Cfg} {s : State} (h : Reachable cfg s) : HistInv s := by
  induction h with
  | init => exact ⟨by simp, by simp, by simp, by simp [reportedErrors, storedErrors]⟩
  | @step s s' hr hs ih =>
    have hle := lastErr_eq hr
    have bgw : s.started = false → ∀ e, s.bg ≠ .failed e := by
      have : s.started = false → s.bg = .absent := by
        clear hs ih hle
        induction hr with
        | init => intro _; rfl
        | @step s s' _ hs ih =>
          intro hst
          cases hs with
          | collect d =>
            cases collect_cases cfg s d with
            | refused _ _ h3 => rw [h3] at hst ⊢; exact ih hst
            | dropped h1 h2 h3 h4 h5 h6 h7 h8 h9 h10 h11 h12 => rw [h12] at hst; cases hst
            | queued h1 h2 h3 h4 h5 h6 h7 h8 h9 h10 h11 => rw [h11] at hst; cases hst
          | flush => exact ih hst
          | tick hb => rw [ih hst] at hb; cases hb
          | send => exact ih hst
          | sendTimeout => exact ih hst
          | flushEnd => exact ih hst
          | bgFlushEnd f pre post hf hr hb => rw [ih hst] at hb; cases hb
          | store e hb => rw [ih hst] at hb; cases hb
          | exit hb => rw [ih hst] at hb; cases hb
          | stop =>
            simp only [State.stop] at hst ⊢
            split at hst <;> simp_all
      intro h e he
      rw [this h] at he; cases he
    have bgc : ∀ {s1 : State}, (s.started = true → s1.bg = s.bg ∧ s1.stopChan = s.stopChan) →
        (s.started = false → s1.bg = .waiting ∧ s1.stopChan = .opened) → ∀ e, s1.bg = .failed e → s.bg = .failed e := by
      intro s1 h1 h2 e he
      cases hst : s.started with
      | true => rw [← (h1 hst).1]; exact he
      | false => rw [(h2 hst).1] at he; cases he
    cases hs with
    | collect d =>
      cases collect_cases cfg s d with
      | refused h1 _ h3 =>
        refine ih.snoc (x := .collect d .refused (some .stopped)) (by rw [h3]) ⟨ih.stopped.1 h1, rfl⟩ (by rw [h3]; simp) ?_ ?_
        · rw [h3]; exact fun e he => .inl he
        · rw [h3]; simp [reportedErrors, storedErrors]
      | dropped h1 h2 h3 h4 h5 h6 h7 h8 h9 h10 h11 h12 h13 h14 =>
        refine ih.snoc h7 ⟨?_, rfl⟩ (by rw [h11]; simp [h1]) (fun e he => .inl (bgc h13 h14 e he)) ?_
        · intro hm; rw [ih.stopped.2 hm] at h1; cases h1
        · rw [h8]; simp [reportedErrors, storedErrors]
      | queued h1 h2 h3 h4 h5 h6 h7 h8 h9 h10 h11 h12 h13 =>
        refine ih.snoc h6 ⟨?_, hle⟩ (by rw [h10]; simp [h1]) (fun e he => .inl (bgc h12 h13 e he)) ?_
        · intro hm; rw [ih.stopped.2 hm] at h1; cases h1
        · rw [h7]
          cases s.lastErr <;> simp [reportedErrors, storedErrors]
    | flush =>
      exact ih.snoc (x := .flushBegin s.nextFlush) rfl trivial (by simp [State.flushBegin]) (fun e he => .inl he)
        (by simp [State.flushBegin, reportedErrors, storedErrors])
    | tick hb =>
      exact ih.snoc (x := .flushBegin s.nextFlush) rfl trivial (by simp [State.flushBegin])
        (fun e he => by cases he) (by simp [State.flushBegin, reportedErrors, storedErrors])
    | send f pre post d bef aft err hf hr =>
      exact ih.snoc (x := .send f.id d err) rfl trivial (by simp) (fun e he => .inl he)
        (by simp [reportedErrors, storedErrors])
    | sendTimeout f pre post d bef aft err _ hf hr =>
      have hmid : HistInv { s with history := s.history ++ [.send f.id d err] } :=
        ih.snoc (x := .send f.id d err) rfl trivial (by simp) (fun e he => .inl he) (by simp [reportedErrors, storedErrors])
      exact hmid.snoc (x := .timeout f.id (bef ++ aft)) (by simp) trivial (by simp) (fun e he => .inl he)
        (by simp [reportedErrors, storedErrors])
    | flushEnd f pre post hf hr hb =>
      exact ih.snoc (x := .flushEnd f.id (flushErr f.errs)) rfl trivial (by simp)
        (fun e he => .inl he) (by simp [reportedErrors, storedErrors])
    | bgFlushEnd f pre post hf hr hb =>
      refine ih.snoc (x := .flushEnd f.id (flushErr f.errs)) rfl trivial (by simp) ?_ (by simp [reportedErrors, storedErrors])
      intro e he
      right
      simp only at he
      split at he
      · rename_i e' heq
        cases he
        exact ⟨f.id, by rw [heq]⟩
      · cases he
    | store e hb =>
      refine ih.snoc (x := .stored e) rfl (ih.failed e hb) (by simp) (fun e he => by cases he) ?_
      simp [reportedErrors, storedErrors]
    | exit hb hc =>
      exact ⟨ih.events, ih.stopped, (fun e he => by cases he), ih.reported⟩
    | stop =>
      simp only [State.stop]
      split
      · exact ih.snoc (x := .stop) rfl trivial (by simp) (fun e he => .inl he) (by simp [reportedErrors, storedErrors])
      · exact ih.snoc (x := .stopPanic) rfl trivial (by simp) (fun e he => .inl he) (by simp [reportedErrors, storedErrors])

/-! ## After the queue is drained -/

/-- Any number of steps. -/
inductive Steps (cfg : Cfg) : State → State → Prop
  | refl (s : State) : Steps cfg s s
  | tail {s s' s'' : State} : Steps cfg s s' → Step cfg s' s'' → Steps cfg s s''

/-- Nothing is left to send and nothing can be added. -/
def Drained (s : State) : Prop := s.stopped = true ∧ s.pending = [] ∧ ∀ F ∈ s.flushes, F.remaining = []

theorem Drained.step {cfg : Cfg} {s s' : State} (h : Drained s) (hs : Step cfg s s') :
    Drained s' ∧ ∃ es, s'.history = s.history ++ es ∧ ∀ f d err, .send f d err ∉ es := by
  obtain ⟨h1, h2, h3⟩ := h
  cases hs with
  | collect d =>
    cases collect_cases cfg s d with
    | refused _ _ e => rw [e]; exact ⟨⟨h1, h2, h3⟩, _, rfl, by simp⟩
    | dropped e => rw [h1] at e; cases e
    | queued e => rw [h1] at e; cases e
  | flush =>
    refine ⟨⟨h1, rfl, ?_⟩, _, rfl, by simp⟩
    intro F hF
    simp only [State.flushBegin, List.mem_append, List.mem_singleton] at hF
    rcases hF with hF | rfl
    · exact h3 F hF
    · exact h2
  | tick hb =>
    refine ⟨⟨h1, rfl, ?_⟩, _, rfl, by simp⟩
    intro F hF
    simp only [State.flushBegin, List.mem_append, List.mem_singleton] at hF
    rcases hF with hF | rfl
    · exact h3 F hF
    · exact h2
  | send f pre post d bef aft err hf hr => rw [h3 f (by rw [hf]; simp)] at hr; simp at hr
  | sendTimeout f pre post d bef aft err _ hf hr => rw [h3 f (by rw [hf]; simp)] at hr; simp at hr
  | flushEnd f pre post hf hr =>
    refine ⟨⟨h1, h2, ?_⟩, _, rfl, by simp⟩
    intro F hF
    refine h3 F ?_
    rw [hf]
    rcases List.mem_append.1 hF with hF | hF <;> simp [hF]
  | bgFlushEnd f pre post hf hr =>
    refine ⟨⟨h1, h2, ?_⟩, _, rfl, by simp⟩
    intro F hF
    refine h3 F ?_
    rw [hf]
    rcases List.mem_append.1 hF with hF | hF <;> simp [hF]
  | store e hb => exact ⟨⟨h1, h2, h3⟩, _, rfl, by simp⟩
  | exit hb hc => exact ⟨⟨h1, h2, h3⟩, [], by simp, by simp⟩
  | stop =>
    simp only [State.stop]
    split
    · exact ⟨⟨rfl, h2, h3⟩, _, rfl, by simp⟩
    · exact ⟨⟨h1, h2, h3⟩, _, rfl, by simp⟩

theorem Drained.steps {cfg : Cfg} {s s' : State} (h : Drained s) (hs : Steps cfg s s') :
    Drained s' ∧ ∃ es, s'.history = s.history ++ es ∧ ∀ f d err, .send f d err ∉ es := by
  induction hs with
  | refl => exact ⟨h, [], by simp, by simp⟩
  | tail _ hs ih =>
    obtain ⟨h1, es, h2, h3⟩ := ih
    obtain ⟨h4, es', h5, h6⟩ := h1.step hs
    refine ⟨h4, es ++ es', by rw [h5, h2, List.append_assoc], ?_⟩
    intro f d err hm
    rcases List.mem_append.1 hm with hm | hm
    · exact h3 f d err hm
    · exact h6 f d err hm

end Appdash.Chunked
