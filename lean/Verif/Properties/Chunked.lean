import Verif.Proofs.ChunkedHist
import Mathlib.Data.List.Induction

/-! # Properties C13–C17: the chunked collector -/

namespace Appdash.Chunked

/-! ## C13 -/

/-- C13: with a non-zero `MaxQueueSize`, in every reachable state what waits in the queue amounts to at most
`MaxQueueSize` bytes.  (The sizes must be such that adding one to `MaxQueueSize` does not overflow 64 bits.) -/
theorem queue_bounded (cfg : Cfg) (h0 : cfg.maxQueueSize ≠ 0) (s : State) (h : Reachable cfg s)
    (hd : ∀ d fate err, .collect d fate err ∈ s.history → sizeOf d + cfg.maxQueueSize.toNat < 2 ^ 64) :
    queuedBytes s ≤ cfg.maxQueueSize.toNat :=
  Nat.le_trans (size_bound h0 h hd).1 (size_bound h0 h hd).2

/-- C13: a `Collect` that would exceed the limit empties the queue and returns `ErrQueueDropped`. -/
theorem overfull_drops (cfg : Cfg) (h0 : cfg.maxQueueSize ≠ 0) (s : State) (h : Reachable cfg s)
    (hd : ∀ d fate err, .collect d fate err ∈ s.history → sizeOf d + cfg.maxQueueSize.toNat < 2 ^ 64)
    (d : Delivery) (hsz : sizeOf d + cfg.maxQueueSize.toNat < 2 ^ 64) (hst : s.stopped = false)
    (hover : queuedBytes s + sizeOf d > cfg.maxQueueSize.toNat) :
    (s.collect cfg d).2 = some .queueDropped ∧ queuedBytes (s.collect cfg d).1 = 0 ∧ queuedItems (s.collect cfg d).1 = [] := by
  obtain ⟨h1, h2⟩ := size_bound h0 h hd
  cases collect_cases cfg s d with
  | refused e => rw [hst] at e; cases e
  | dropped _ _ _ e1 e2 => exact ⟨e1, by simp [queuedBytes, e2], by simp [queuedItems, e2]⟩
  | queued _ e =>
    have hle := UInt64.le_iff_toNat_le.1 (e h0)
    have hcs : (collectionSize d.2).toNat = sizeOf d := collectionSize_eq d.2 (by simp only [sizeOf] at hsz; omega)
    rw [UInt64.toNat_add, hcs] at hle
    omega

/-- Two collections for one span fit into 60 bytes; the counter then says 54, and a third is too much. -/
example : ∃ s, Reachable ⟨60, true⟩ s ∧ queuedBytes s = 30 ∧ s.queueSize = 54 ∧
    ((s.collect ⟨60, true⟩ (⟨1, 1, 0⟩, [])).2 = some .queueDropped) := by
  have r1 := Reachable.init.step (.collect _ (⟨1, 1, 0⟩, [⟨b!"abc", some b!"def"⟩]) : Step ⟨60, true⟩ _ _)
  have r2 := r1.step (.collect _ (⟨1, 1, 0⟩, []))
  exact ⟨_, r2, by decide, by decide, rfl⟩

/-! ## C14 -/

/-- C14: at every moment, each annotation accepted by `Collect` is in exactly one place: in the queue, held by a running
flush, delivered, or dropped.  (`count x` counts occurrences, so an annotation accepted twice is twice somewhere.) -/
theorem annotation_in_one_place (cfg : Cfg) (s : State) (h : Reachable cfg s) (x : Item) :
    (acceptedItems s.history).count x = (queuedItems s).count x + (heldItems s).count x +
      (deliveredItems s.history).count x + (droppedItems s.history).count x := conserved h x

/-- C14: no annotation is delivered more often than it was accepted. -/
theorem delivered_at_most_once (cfg : Cfg) (s : State) (h : Reachable cfg s) (x : Item) :
    (deliveredItems s.history).count x ≤ (acceptedItems s.history).count x := by
  have := conserved h x; omega

/-- C14: a `Collect` that drops the queue returns `ErrQueueDropped`. -/
theorem collect_drop_reported (cfg : Cfg) (s : State) (h : Reachable cfg s) (d : Delivery) (lost : List Delivery)
    (err : Option Err) (hm : .collect d (.dropped lost) err ∈ s.history) : err = some .queueDropped := by
  obtain ⟨h1, h2, he⟩ := List.append_of_mem hm
  exact ((hist_inv h).events h1 _ h2 he).2

theorem mentionsDrop_flushErr {es : List Err} (h : Err.queueDropped ∈ es) :
    ∃ e, flushErr es = some e ∧ e.mentionsDrop := by
  match es with
  | [] => cases h
  | [e] =>
    rw [List.mem_singleton] at h
    exact ⟨e, rfl, by rw [← h]; trivial⟩
  | e :: e' :: es => exact ⟨_, rfl, h⟩

/-- C14: a flush that gives up and drops data is still running, or it returned an error that mentions the drop
(`ErrQueueDropped` itself, or the list of all its errors). -/
theorem flush_drop_reported (cfg : Cfg) (s : State) (h : Reachable cfg s) (f : Nat) (lost : List Delivery)
    (hm : .timeout f lost ∈ s.history) :
    f ∈ s.flushes.map Flush.id ∨ ∃ e, .flushEnd f (some e) ∈ s.history ∧ e.mentionsDrop := by
  have hi := flush_inv h
  have hlt := hi.about f _ hm (.inr ⟨lost, rfl⟩)
  rcases hi.alive f hlt with ha | ⟨err, he⟩
  · exact .inl ha
  · right
    have hdrop : Err.queueDropped ∈ errorsOf f s.history := by
      simp only [errorsOf, List.mem_flatMap]
      exact ⟨_, hm, by simp⟩
    obtain ⟨e, h1, h2⟩ := mentionsDrop_flushErr hdrop
    have := (hi.ended f err he).2.2.2
    rw [h1] at this
    exact ⟨e, by rw [← this]; exact he, h2⟩

/-- A history with a delivery, a time-out that drops an annotation, and one annotation still queued. -/
example : ∃ s, Reachable ⟨0, true⟩ s ∧ (deliveredItems s.history).length = 1 ∧ (droppedItems s.history).length = 1 ∧
    (queuedItems s).length = 1 ∧ (acceptedItems s.history).length = 3 := by
  have r1 := Reachable.init.step (.collect _ (⟨1, 1, 0⟩, [⟨b!"a", none⟩]) : Step ⟨0, true⟩ _ _)
  have r2 := r1.step (.collect _ (⟨1, 2, 1⟩, [⟨b!"b", none⟩]))
  have r3 := r2.step (.flush _)
  have r4 := r3.step (.collect _ (⟨1, 1, 0⟩, [⟨b!"c", none⟩]))
  have r5 := r4.step (.sendTimeout _ _ [] [] (⟨1, 2, 1⟩, [⟨b!"b", none⟩]) [(⟨1, 1, 0⟩, [⟨b!"a", none⟩])] [] none rfl rfl rfl)
  exact ⟨_, r5, by decide, by decide, by decide, by decide⟩

/-! ## C15 -/

/-- C15: a flush that ran to its end without giving up called the underlying collector exactly once for each span
collected since the queue was last emptied before it, with that span's annotations concatenated in order. -/
theorem flush_groups (cfg : Cfg) (s : State) (h : Reachable cfg s) (f : Nat) (err : Option Err)
    (hend : .flushEnd f err ∈ s.history) (hin : ∀ lost, .timeout f lost ∉ s.history) :
    GroupedBySpan (sends f s.history) (waiting (before f s.history)) := by
  obtain ⟨-, -, hs, -⟩ := (flush_inv h).ended f err hend
  obtain ⟨m, h1, h2⟩ := hs hin
  rw [List.append_nil] at h2
  exact h1.perm h2

/-- C15: a flush returns nil if nothing went wrong, the error if there was one, and otherwise all of them together. -/
theorem flush_errors (cfg : Cfg) (s : State) (h : Reachable cfg s) (f : Nat) (err : Option Err)
    (hend : .flushEnd f err ∈ s.history) : err = flushErr (errorsOf f s.history) :=
  ((flush_inv h).ended f err hend).2.2.2

/-- Three collections for two spans, flushed in the other order. -/
example : ∃ s, Reachable ⟨0, true⟩ s ∧ .flushEnd 0 none ∈ s.history ∧ (∀ lost, .timeout 0 lost ∉ s.history) ∧
    waiting (before 0 s.history) =
      [(⟨1, 1, 0⟩, [⟨b!"a", none⟩]), (⟨1, 2, 1⟩, [⟨b!"b", none⟩]), (⟨1, 1, 0⟩, [⟨b!"c", none⟩])] ∧
    sends 0 s.history = [(⟨1, 2, 1⟩, [⟨b!"b", none⟩]), (⟨1, 1, 0⟩, [⟨b!"a", none⟩, ⟨b!"c", none⟩])] := by
  have r1 := Reachable.init.step (.collect _ (⟨1, 1, 0⟩, [⟨b!"a", none⟩]) : Step ⟨0, true⟩ _ _)
  have r2 := r1.step (.collect _ (⟨1, 2, 1⟩, [⟨b!"b", none⟩]))
  have r3 := r2.step (.collect _ (⟨1, 1, 0⟩, [⟨b!"c", none⟩]))
  have r4 := r3.step (.flush _)
  have r5 := r4.step (.send _ _ [] [] (⟨1, 2, 1⟩, [⟨b!"b", none⟩])
    [(⟨1, 1, 0⟩, [⟨b!"a", none⟩, ⟨b!"c", none⟩])] [] none rfl rfl)
  have r6 := r5.step (.send _ _ [] [] (⟨1, 1, 0⟩, [⟨b!"a", none⟩, ⟨b!"c", none⟩]) [] [] none rfl rfl)
  have r7 := r6.step (.flushEnd _ _ [] [] rfl rfl (by intro g hg; cases hg))
  refine ⟨_, r7, ?_, ?_, rfl, rfl⟩
  · exact List.mem_append_right _ (List.mem_singleton.2 rfl)
  · intro lost hm
    simp [State.collect, State.start, State.flushBegin] at hm

/-! ## C16 -/

/-- The full statement of C16: `Stop` never panics, and after it nothing is sent and every `Collect` fails. -/
def StopIsFinal : Prop :=
  ∀ cfg s, Reachable cfg s → .stopPanic ∉ s.history ∧
    ∀ h1 h2, s.history = h1 ++ .stop :: h2 →
      (∀ f d err, .send f d err ∉ h2) ∧ ∀ d fate err, .collect d fate err ∈ h2 → fate = .refused

/-- C16 is false of the code: a background flush that has started keeps sending after `Stop` has returned. -/
theorem sends_after_stop : ∃ s h1 h2 d, Reachable defaultCfg s ∧ s.history = h1 ++ .stop :: h2 ∧ .send 0 d none ∈ h2 := by
  have r1 := Reachable.init.step (.collect _ (⟨1, 1, 0⟩, []) : Step defaultCfg _ _)
  have r2 := r1.step (.tick _ rfl)
  have r3 := r2.step (.stop _)
  have r4 := r3.step (.send _ _ [] [] (⟨1, 1, 0⟩, []) [] [] none rfl rfl)
  exact ⟨_, [.collect (⟨1, 1, 0⟩, []) .queued none, .flushBegin 0], [.send 0 (⟨1, 1, 0⟩, []) none], (⟨1, 1, 0⟩, []), r4, rfl,
    List.mem_singleton.2 rfl⟩

/-- C16 is false of the code: `Stop` before the first `Collect` panics (it closes a nil channel). -/
theorem stop_panics_unstarted (cfg : Cfg) : ∃ s, Reachable cfg s ∧ .stopPanic ∈ s.history :=
  ⟨_, Reachable.init.step (.stop _), by simp [State.stop]⟩

/-- C16 is false of the code: a second `Stop` panics (it closes a closed channel). -/
theorem stop_panics_twice : ∃ s, Reachable defaultCfg s ∧
    s.history = [.collect (⟨1, 1, 0⟩, []) .queued none, .stop, .stopPanic] := by
  have r1 := Reachable.init.step (.collect _ (⟨1, 1, 0⟩, []) : Step defaultCfg _ _)
  have r2 := r1.step (.stop _)
  have r3 := r2.step (.stop _)
  exact ⟨_, r3, rfl⟩

/-- So the full statement is false. -/
theorem stop_not_final : ¬ StopIsFinal := by
  intro h
  obtain ⟨s, h1, h2, d, hr, he, hm⟩ := sends_after_stop
  exact ((h _ s hr).2 h1 h2 he).1 0 d none hm

/-- C16, the part that holds: after `Stop` every `Collect` fails. -/
theorem stopped_collect_fails_partial (cfg : Cfg) (s : State) (h : Reachable cfg s) (h1 h2 : List Event)
    (hs : s.history = h1 ++ .stop :: h2) (d : Delivery) (fate : Fate) (err : Option Err)
    (hm : .collect d fate err ∈ h2) : fate = .refused ∧ err = some .stopped := by
  obtain ⟨a, b, rfl⟩ := List.append_of_mem hm
  have he := (hist_inv h).events (h1 ++ .stop :: a) (.collect d fate err) b (by rw [hs]; simp)
  have hin : Event.stop ∈ h1 ++ .stop :: a := by simp
  cases fate with
  | queued => exact absurd hin he.1
  | dropped _ => exact absurd hin he.1
  | refused => exact ⟨rfl, he.2⟩

/-- C16, the part that holds: such a `Collect` leaves everything else as it was. -/
theorem stopped_collect_keeps_queue_partial (cfg : Cfg) (s : State) (h : Reachable cfg s) (hs : .stop ∈ s.history)
    (d : Delivery) : (s.collect cfg d).2 = some .stopped ∧
      (s.collect cfg d).1 = { s with history := s.history ++ [.collect d .refused (some .stopped)] } := by
  have hst := (hist_inv h).stopped.2 hs
  cases collect_cases cfg s d with
  | refused _ e1 e2 => exact ⟨e1, e2⟩
  | dropped e => rw [hst] at e; cases e
  | queued e => rw [hst] at e; cases e

/-- C16, the part that holds: whatever is sent after `Stop` was accepted before it and had not been sent. -/
theorem stopped_sends_only_accepted_partial (cfg : Cfg) (s : State) (h : Reachable cfg s) (h1 h2 : List Event)
    (hs : s.history = h1 ++ .stop :: h2) (x : Item) :
    (deliveredItems h1).count x + (deliveredItems h2).count x ≤ (acceptedItems h1).count x := by
  have hc := conserved h x
  have ha : acceptedItems s.history = acceptedItems h1 := by
    rw [hs]
    have : acceptedItems h2 = [] := by
      simp only [acceptedItems, List.flatMap_eq_nil_iff]
      intro e he
      cases e with
      | collect d fate err =>
        obtain ⟨hf, -⟩ := stopped_collect_fails_partial cfg s h h1 h2 hs d fate err he
        rw [hf]
      | _ => rfl
    simp only [acceptedItems, List.flatMap_append, List.flatMap_cons] at this ⊢
    simp [this]
  have hd : deliveredItems s.history = deliveredItems h1 ++ deliveredItems h2 := by
    rw [hs]; simp [deliveredItems]
  rw [ha, hd, List.count_append] at hc
  omega

/-- C16, the part that holds: once the queue has been emptied after `Stop` (by one flush) and the running flushes have
sent what they hold, nothing is sent any more, whoever calls what. -/
theorem stopped_drained_silent_partial (cfg : Cfg) (s s' : State) (h : Reachable cfg s) (hstop : .stop ∈ s.history)
    (hq : s.pending = []) (hf : ∀ F ∈ s.flushes, F.remaining = []) (hs : Steps cfg s s') :
    ∃ es, s'.history = s.history ++ es ∧ ∀ f d err, .send f d err ∉ es :=
  (Drained.steps ⟨(hist_inv h).stopped.2 hstop, hq, hf⟩ hs).2

/-! ## C17 -/

/-- The full statement of C17: the first `Collect` that queues its data after a background flush has failed returns
that error (and `Collect` never returns more errors than background flushes had). -/
def BackgroundErrorsReported : Prop :=
  ∀ cfg s, Reachable cfg s → (reportedErrors s.history).Sublist (storedErrors s.history) ∧
    ∀ h1 e h2 d err h3, s.history = h1 ++ .stored e :: h2 ++ .collect d .queued err :: h3 →
      (∀ d' err', .collect d' .queued err' ∉ h2) → err = some e

/-- C17 is false of the code: the error of a second failed background flush overwrites the first. -/
theorem background_error_lost : ∃ s, Reachable defaultCfg s ∧
    storedErrors s.history = [.underlying 1, .underlying 2] ∧ reportedErrors s.history = [.underlying 2] ∧
    ∃ h1 d, s.history = h1 ++ [.stored (.underlying 1), .flushBegin 1, .send 1 (⟨1, 2, 1⟩, []) (some (.underlying 2)),
      .flushEnd 1 (some (.underlying 2)), .stored (.underlying 2)] ++ [.collect d .queued (some (.underlying 2))] := by
  have r1 := Reachable.init.step (.collect _ (⟨1, 1, 0⟩, []) : Step defaultCfg _ _)
  have r2 := r1.step (.tick _ rfl)
  have r3 := r2.step (.send _ _ [] [] (⟨1, 1, 0⟩, []) [] [] (some (.underlying 1)) rfl rfl)
  have r4 := r3.step (.collect _ (⟨1, 2, 1⟩, []))
  have r5 := r4.step (.bgFlushEnd _ _ [] [] rfl rfl rfl)
  have r6 := r5.step (.store _ _ rfl)
  have r7 := r6.step (.tick _ rfl)
  have r8 := r7.step (.send _ _ [] [] (⟨1, 2, 1⟩, []) [] [] (some (.underlying 2)) rfl rfl)
  have r9 := r8.step (.bgFlushEnd _ _ [] [] rfl rfl rfl)
  have r10 := r9.step (.store _ _ rfl)
  have r11 := r10.step (.collect _ (⟨1, 3, 1⟩, []))
  exact ⟨_, r11, rfl, rfl, [.collect (⟨1, 1, 0⟩, []) .queued none, .flushBegin 0,
    .send 0 (⟨1, 1, 0⟩, []) (some (.underlying 1)), .collect (⟨1, 2, 1⟩, []) .queued none,
    .flushEnd 0 (some (.underlying 1))], (⟨1, 3, 1⟩, []), rfl⟩

/-- So the full statement is false. -/
theorem background_errors_not_all_reported : ¬ BackgroundErrorsReported := by
  intro h
  obtain ⟨s, hr, -, -, h1, d, he⟩ := background_error_lost
  have := (h _ s hr).2 h1 (.underlying 1) [.flushBegin 1, .send 1 (⟨1, 2, 1⟩, []) (some (.underlying 2)),
      .flushEnd 1 (some (.underlying 2)), .stored (.underlying 2)] d (some (.underlying 2)) [] (by rw [he]) (by simp)
  cases this

/-- C17, the part that holds: a `Collect` that queues its data returns the error of the latest failed background flush
if no earlier such `Collect` came since that flush, and nil otherwise. -/
theorem collect_reports_latest_partial (cfg : Cfg) (s : State) (h : Reachable cfg s) (h1 h2 : List Event) (d : Delivery)
    (err : Option Err) (hs : s.history = h1 ++ .collect d .queued err :: h2) : err = unreported h1 :=
  ((hist_inv h).events h1 _ h2 hs).2

/-- C17, the part that holds: if no other background flush fails in between, the next `Collect` that queues its data
returns the error. -/
theorem background_error_reported_partial (cfg : Cfg) (s : State) (h : Reachable cfg s) (h1 h2 h3 : List Event) (e : Err)
    (d : Delivery) (err : Option Err) (hs : s.history = h1 ++ .stored e :: h2 ++ .collect d .queued err :: h3)
    (hc : ∀ d' err', .collect d' .queued err' ∉ h2) (ho : ∀ e', .stored e' ∉ h2) : err = some e := by
  rw [collect_reports_latest_partial cfg s h _ h3 d err hs]
  have : ∀ l : List Event, (∀ d' err', .collect d' .queued err' ∉ l) → (∀ e', .stored e' ∉ l) →
      unreported (h1 ++ .stored e :: l) = some e := by
    intro l hc ho
    induction l using List.reverseRecOn with
    | nil => rw [unreported_snoc]
    | append_singleton l x ih =>
      have e1 : h1 ++ .stored e :: (l ++ [x]) = (h1 ++ .stored e :: l) ++ [x] := by simp
      rw [e1, unreported_snoc]
      have ih := ih (fun d' err' hm => hc d' err' (by simp [hm])) (fun e' hm => ho e' (by simp [hm]))
      cases x with
      | stored e' => exact absurd (by simp) (ho e')
      | collect d' fate err' =>
        cases fate with
        | queued => exact absurd (by simp) (hc d' err')
        | _ => exact ih
      | _ => exact ih
  exact this h2 hc ho

/-- C17, the part that holds: the errors returned by `Collect` calls that queue their data are, in order, errors of
different failed background flushes: no error is returned twice. -/
theorem errors_reported_once_partial (cfg : Cfg) (s : State) (h : Reachable cfg s) :
    (reportedErrors s.history).Sublist (storedErrors s.history) :=
  (List.sublist_append_left _ _).trans (hist_inv h).reported

/-- C17, the part that holds: every error kept for the next caller is the error with which some flush returned. -/
theorem stored_error_from_flush_partial (cfg : Cfg) (s : State) (h : Reachable cfg s) (h1 h2 : List Event) (e : Err)
    (hs : s.history = h1 ++ .stored e :: h2) : ∃ f, .flushEnd f (some e) ∈ h1 := (hist_inv h).events h1 _ h2 hs

/-- C17, the part that holds: while no background flush has failed, `Collect` fails only when it drops the queue or the
collector is stopped. -/
theorem collect_fails_only_if_partial (cfg : Cfg) (s : State) (h : Reachable cfg s) (h1 h2 : List Event) (d : Delivery)
    (fate : Fate) (err : Option Err) (hs : s.history = h1 ++ .collect d fate err :: h2) (hno : ∀ e, .stored e ∉ h1)
    (herr : err ≠ none) : (∃ lost, fate = .dropped lost ∧ err = some .queueDropped) ∨ (.stop ∈ h1 ∧ err = some .stopped) := by
  have he := (hist_inv h).events h1 _ h2 hs
  cases fate with
  | dropped lost => exact .inl ⟨lost, rfl, he.2⟩
  | refused => exact .inr he
  | queued =>
    refine absurd ?_ herr
    rw [he.2]
    clear he hs herr
    induction h1 using List.reverseRecOn with
    | nil => rfl
    | append_singleton l x ih =>
      have ih := ih (fun e hm => hno e (by simp [hm]))
      rw [unreported_snoc]
      cases x with
      | stored e' => exact absurd (by simp) (hno e')
      | collect d' fate err' => cases fate <;> first | rfl | exact ih
      | _ => exact ih

end Appdash.Chunked
