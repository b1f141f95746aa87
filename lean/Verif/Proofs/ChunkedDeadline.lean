import Verif.Proofs.ChunkedTime

/-!
# Proofs: how long annotations wait
-/

namespace Appdash.Chunked

variable {τ : Timing} {T T' T0 : Timed}

theorem TInv.flush_bound (I : TInv τ T) (h0 : τ.flushTimeout ≠ 0) {f : Flush} (hf : f ∈ T.s.flushes) :
    T.now ≤ T.start f.id + τ.flushTime := by
  have h1 := I.mayBe.2.2 f hf
  have h2 := I.early h0 f hf
  unfold Timing.flushTime
  split at h1
  · next h => rw [if_pos h] at h2; omega
  · next h => rw [if_neg h] at h2; omega

/-- When the background goroutine begins its next flush, at the latest. -/
def Timed.deadline (τ : Timing) (T : Timed) : Nat :=
  match T.s.bg with
  | .waiting => T.bgSince + (τ.minInterval + τ.delay)
  | .failed _ => T.bgSince + τ.delay + (τ.minInterval + τ.delay)
  | .flushing g => T.start g + τ.flushTime + τ.delay + (τ.minInterval + τ.delay)
  | _ => 0

theorem TInv.now_le_deadline (I : TInv τ T) (h0 : τ.flushTimeout ≠ 0) (h1 : T.s.bg ≠ .absent) (h2 : T.s.stopped = false) :
    T.now ≤ T.deadline τ := by
  unfold Timed.deadline
  split
  · next h => have := I.mayBe.1 h; omega
  · next e h => have := I.mayBe.2.1 e h; omega
  · next g h =>
    obtain ⟨f, hf, e⟩ := I.running g h
    have := I.flush_bound h0 hf
    rw [e] at this
    omega
  · next h3 h4 h5 =>
    cases hb : T.s.bg with
    | absent => exact absurd hb h1
    | exited => have := I.exited hb; rw [h2] at this; cases this
    | waiting => exact absurd hb h3
    | failed e => exact absurd hb (h4 e)
    | flushing g => exact absurd hb (h5 g)

/-- When the first flush after `T0` begins, at the latest. -/
def Timing.next (τ : Timing) : Nat := τ.flushTime + τ.delay + (τ.minInterval + τ.delay)

theorem TInv.deadline_le (I : TInv τ T) : T.deadline τ ≤ T.now + τ.next := by
  have hb := I.bgSince
  unfold Timed.deadline Timing.next
  split
  · omega
  · omega
  · next g h =>
    obtain ⟨f, hf, e⟩ := I.running g h
    have := I.sinceLe f hf
    rw [e] at this
    omega
  · omega

/-- What the flushes up to number `n` hold. -/
def heldUpTo (n : Nat) (s : State) : List Item := (s.flushes.filter fun f => f.id ≤ n).flatMap fun f => f.remaining.flatMap items

/-- Where the annotations accepted before are. -/
def Kept (n : Nat) (x : Item) (s : State) : Nat :=
  (deliveredItems s.history).count x + (droppedItems s.history).count x + (heldUpTo n s).count x +
    if s.nextFlush = n then (queuedItems s).count x else 0

theorem kept_flushBegin (n : Nat) (x : Item) (s : State) (bg : Background) : Kept n x s ≤ Kept n x { s.flushBegin with bg := bg } := by
  simp only [Kept, State.flushBegin, deliveredItems, droppedItems, queuedItems, heldUpTo, List.flatMap_append, List.flatMap_cons, List.flatMap_nil,
    List.append_nil, List.filter_append, List.count_append, List.count_nil]
  by_cases e : s.nextFlush = n
  · simp only [e, if_true, Nat.le_refl, decide_true, List.filter_cons, List.filter_nil, List.flatMap_cons, List.flatMap_nil, List.append_nil]
    omega
  · simp [e]

theorem kept_eq_flushes {n : Nat} {x : Item} {s s' : State} {es : List Event} (hf : (heldUpTo n s').count x = (heldUpTo n s).count x)
    (hn : s'.nextFlush = s.nextFlush) (hp : s'.pending = s.pending) (hh : s'.history = s.history ++ es) : Kept n x s ≤ Kept n x s' := by
  simp only [Kept, hf, hn, hh, queuedItems, hp, deliveredItems, droppedItems, List.flatMap_append, List.count_append]
  omega

theorem kept_step {cfg : Cfg} {s s' : State} (h : Step cfg s s') (n : Nat) (x : Item) : Kept n x s ≤ Kept n x s' := by
  cases h with
  | collect d =>
    cases collect_cases cfg s d with
    | refused _ _ h3 => rw [h3]; exact kept_eq_flushes rfl rfl rfl rfl
    | dropped h1 h2 h3 h4 h5 h6 h7 h8 h9 h10 =>
      simp only [Kept, h5, h7, h10, heldUpTo, h9, deliveredItems, droppedItems, queuedItems, List.flatMap_append, List.flatMap_cons, List.flatMap_nil,
        List.append_nil, List.count_append, List.count_nil]
      split <;> omega
    | queued h1 h2 h3 h4 h5 h6 h7 h8 h9 =>
      simp only [Kept, h4, h6, h9, heldUpTo, h8, deliveredItems, droppedItems, queuedItems, List.flatMap_append, List.flatMap_cons, List.flatMap_nil,
        List.append_nil, count_enqueue]
      split <;> omega
  | flush => exact kept_flushBegin n x s s.bg
  | tick _ => exact kept_flushBegin n x s _
  | send f pre post d bef aft err hf hr =>
    simp only [Kept, heldUpTo, hf, deliveredItems, droppedItems, queuedItems, List.flatMap_append, List.flatMap_cons, List.flatMap_nil,
      List.append_nil, List.count_append, List.count_nil, List.filter_append, List.filter_cons]
    by_cases e : f.id ≤ n
    · simp only [e, decide_true, if_true, List.flatMap_cons, hr, List.flatMap_append, List.count_append]
      omega
    · simp only [e, decide_false, Bool.false_eq_true, if_false]
      omega
  | sendTimeout f pre post d bef aft err _ hf hr =>
    simp only [Kept, heldUpTo, hf, deliveredItems, droppedItems, queuedItems, List.flatMap_append, List.flatMap_cons, List.flatMap_nil,
      List.append_nil, List.nil_append, List.count_append, List.count_nil, List.filter_append, List.filter_cons]
    by_cases e : f.id ≤ n
    · simp only [e, decide_true, if_true, List.flatMap_cons, hr, List.flatMap_append, List.count_append, List.flatMap_nil, List.nil_append]
      omega
    · simp only [e, decide_false, Bool.false_eq_true, if_false]
      omega
  | flushEnd f pre post hf hr _ =>
    refine kept_eq_flushes ?_ rfl rfl rfl
    simp only [heldUpTo, hf, List.filter_append, List.filter_cons, List.flatMap_append]
    split <;> simp [hr]
  | bgFlushEnd f pre post hf hr _ =>
    refine kept_eq_flushes ?_ rfl rfl rfl
    simp only [heldUpTo, hf, List.filter_append, List.filter_cons, List.flatMap_append]
    split <;> simp [hr]
  | store e _ => exact kept_eq_flushes rfl rfl rfl rfl
  | exit _ _ => exact Nat.le_refl _
  | stop =>
    unfold State.stop
    split <;> exact kept_eq_flushes rfl rfl rfl rfl

/-- What is true on the way from `T0` to `T`. -/
structure Along (τ : Timing) (T0 T : Timed) : Prop where
  ge : T0.s.nextFlush ≤ T.s.nextFlush
  kept : ∀ x, Kept T0.s.nextFlush x T0.s ≤ Kept T0.s.nextFlush x T.s
  times : T.s.stopped = false →
    (T.s.nextFlush = T0.s.nextFlush → T.s.bg ≠ .absent ∧ T.deadline τ ≤ T0.now + τ.next) ∧
      ∀ f ∈ T.s.flushes, f.id ≤ T0.s.nextFlush → T.start f.id ≤ T0.now + τ.next

theorem Along.refl (I : TInv τ T0) (hb : T0.s.bg ≠ .absent) : Along τ T0 T0 := by
  refine ⟨Nat.le_refl _, fun _ => Nat.le_refl _, fun _ => ⟨fun _ => ⟨hb, I.deadline_le⟩, fun f hf _ => ?_⟩⟩
  have := I.sinceLe f hf
  omega

theorem Along.flushBegin (A : Along τ T0 T) (I : TInv τ T) (F : FlushInv T.s) (h0 : τ.flushTimeout ≠ 0) (bg : Background) (ticks : List Nat) :
    Along τ T0 { T with
        s := { T.s.flushBegin with bg := bg }, start := setAt T.start T.s.nextFlush T.now
        since := setAt T.since T.s.nextFlush T.now, ticks := ticks } := by
  refine ⟨Nat.le_succ_of_le A.ge, fun x => Nat.le_trans (A.kept x) (kept_flushBegin _ x _ _), fun hst => ⟨fun h => ?_, fun f hf hid => ?_⟩⟩
  · have : T.s.nextFlush + 1 = T0.s.nextFlush := h
    have := A.ge
    omega
  · have hf' : f ∈ T.s.flushes ∨ f = ⟨T.s.nextFlush, T.s.pending, []⟩ := by simpa [State.flushBegin] using hf
    rcases hf' with hf' | hf'
    · show setAt _ _ _ f.id ≤ _
      rw [setAt_ne _ (Nat.ne_of_lt (F.ids f hf'))]
      exact (A.times hst).2 f hf' hid
    · subst hf'
      show setAt _ _ _ T.s.nextFlush ≤ _
      rw [setAt_self]
      obtain ⟨h1, h2⟩ := (A.times hst).1 (Nat.le_antisymm hid A.ge)
      exact Nat.le_trans (I.now_le_deadline h0 h1 hst) h2

theorem Along.step (A : Along τ T0 T) (I : TInv τ T) (hr : Reachable τ.cfg T.s) (h0 : τ.flushTimeout ≠ 0) (h : TStep τ T T') : Along τ T0 T' := by
  have F := flush_inv hr
  have kept : ∀ x, Kept T0.s.nextFlush x T0.s ≤ Kept T0.s.nextFlush x T'.s := by
    intro x
    rcases h.untimed with e | e
    · rw [e]; exact A.kept x
    · exact Nat.le_trans (A.kept x) (kept_step e _ x)
  have same : T'.s.nextFlush = T.s.nextFlush → T'.start = T.start → (T'.s.stopped = false → T.s.stopped = false) →
      (∀ f ∈ T'.s.flushes, ∃ f' ∈ T.s.flushes, f'.id = f.id) →
      (T'.s.stopped = false → T.s.bg ≠ .absent → T'.s.bg ≠ .absent ∧ T'.deadline τ ≤ T.deadline τ) → Along τ T0 T' := by
    intro e1 e2 e3 e4 e5
    refine ⟨e1 ▸ A.ge, kept, fun hst => ⟨fun hn => ?_, fun f hf hid => ?_⟩⟩
    · obtain ⟨h1, h2⟩ := (A.times (e3 hst)).1 (e1.symm.trans hn)
      obtain ⟨h3, h4⟩ := e5 hst h1
      exact ⟨h3, Nat.le_trans h4 h2⟩
    · obtain ⟨f', h1, h2⟩ := e4 f hf
      rw [e2, ← h2]
      exact (A.times (e3 hst)).2 f' h1 (h2 ▸ hid)
  cases h with
  | wait d hm => exact same rfl rfl id (fun f hf => ⟨f, hf, rfl⟩) fun _ hb => ⟨hb, Nat.le_refl _⟩
  | collect d =>
    have hstarted : T.s.bg ≠ .absent → T.s.started = true := by
      intro hb
      cases e : T.s.started with
      | true => rfl
      | false => exact absurd (I.unstarted e).1 hb
    have dl : ∀ s' : State, (T.s.started = true → s'.bg = T.s.bg) → T.s.bg ≠ .absent →
        s'.bg ≠ .absent ∧ Timed.deadline τ { T with s := s', bgSince := if T.s.started then T.bgSince else T.now } ≤ T.deadline τ := by
      intro s' h1 hb
      have hs := hstarted hb
      refine ⟨by rw [h1 hs]; exact hb, ?_⟩
      rw [if_pos hs]
      unfold Timed.deadline
      simp only [h1 hs]
      exact Nat.le_refl _
    cases collect_cases τ.cfg T.s d with
    | refused _ _ h3 =>
      have e : ∀ s', (T.s.collect τ.cfg d).1 = s' → s' = { T.s with history := T.s.history ++ [.collect d .refused (some .stopped)] } := by
        intro s' h; rw [← h, h3]
      have e1 := e _ rfl
      refine same (by rw [e1]) rfl (by rw [e1]; exact id) (by rw [e1]; exact fun f hf => ⟨f, hf, rfl⟩) fun _ hb => dl _ (by rw [e1]; exact fun _ => rfl) hb
    | dropped h1 h2 h3 h4 h5 h6 h7 h8 h9 h10 h11 h12 h13 =>
      exact same h10 rfl (fun _ => h1) (fun f hf => ⟨f, h9 ▸ hf, rfl⟩) fun _ hb => dl _ (fun h => (h13 h).1) hb
    | queued h1 h2 h3 h4 h5 h6 h7 h8 h9 h10 h11 h12 =>
      exact same h9 rfl (fun _ => h1) (fun f hf => ⟨f, h8 ▸ hf, rfl⟩) fun _ hb => dl _ (fun h => (h12 h).1) hb
  | flush => exact A.flushBegin I F h0 _ _
  | tick h1 h2 => exact A.flushBegin I F h0 _ _
  | send f pre post d bef aft err h1 h2 h3 =>
    refine same rfl rfl id (fun g hg => ?_) fun _ hb => ⟨hb, Nat.le_refl _⟩
    simp only [List.mem_append, List.mem_cons] at hg
    rcases hg with hg | hg | hg
    · exact ⟨g, by rw [h1]; simp [hg], rfl⟩
    · exact ⟨f, by rw [h1]; simp, by rw [hg]⟩
    · exact ⟨g, by rw [h1]; simp [hg], rfl⟩
  | sendTimeout f pre post d bef aft err h1 h2 h3 =>
    refine same rfl rfl id (fun g hg => ?_) fun _ hb => ⟨hb, Nat.le_refl _⟩
    simp only [List.mem_append, List.mem_cons] at hg
    rcases hg with hg | hg | hg
    · exact ⟨g, by rw [h1]; simp [hg], rfl⟩
    · exact ⟨f, by rw [h1]; simp, by rw [hg]⟩
    · exact ⟨g, by rw [h1]; simp [hg], rfl⟩
  | flushEnd f pre post h1 h2 h3 =>
    refine same rfl rfl id (fun g hg => ⟨g, ?_, rfl⟩) fun _ hb => ⟨hb, Nat.le_refl _⟩
    rw [h1]
    simp only [List.mem_append, List.mem_cons] at hg ⊢
    grind
  | bgFlushEnd f pre post h1 h2 h3 =>
    refine same rfl rfl id (fun g hg => ⟨g, ?_, rfl⟩) fun _ hb => ?_
    · rw [h1]
      simp only [List.mem_append, List.mem_cons] at hg ⊢
      grind
    · have hfb := I.flush_bound h0 (f := f) (by rw [h1]; simp)
      have hd : T.deadline τ = T.start f.id + τ.flushTime + τ.delay + (τ.minInterval + τ.delay) := by simp only [Timed.deadline, h3]
      rw [hd]
      constructor
      · show (match flushErr f.errs with | some e => Background.failed e | none => .waiting) ≠ .absent
        split <;> intro h <;> cases h
      · unfold Timed.deadline
        cases flushErr f.errs with
        | none => simp only; omega
        | some e => simp only; omega
  | store e he =>
    refine same rfl rfl id (fun f hf => ⟨f, hf, rfl⟩) fun _ hb => ⟨(fun h => by cases h), ?_⟩
    have hd : T.deadline τ = T.bgSince + τ.delay + (τ.minInterval + τ.delay) := by simp only [Timed.deadline, he]
    rw [hd]
    have := I.mayBe.2.1 e he
    show T.now + (τ.minInterval + τ.delay) ≤ _
    omega
  | exit h1 h2 =>
    refine same rfl rfl id (fun f hf => ⟨f, hf, rfl⟩) fun hst _ => ?_
    have := I.closed h2
    rw [show T.s.stopped = false from hst] at this
    cases this
  | stop =>
    have h1 : T.s.stop.bg = T.s.bg := by unfold State.stop; split <;> rfl
    have h2 : T.s.stop.flushes = T.s.flushes := by unfold State.stop; split <;> rfl
    have h3 : T.s.stop.nextFlush = T.s.nextFlush := by unfold State.stop; split <;> rfl
    have h5 : T.s.stop.stopped = false → T.s.stopped = false := by
      unfold State.stop
      split
      · intro h; cases h
      · exact id
    refine same h3 rfl h5 (fun f hf => ⟨f, h2 ▸ hf, rfl⟩) fun _ hb => ⟨by rw [h1]; exact hb, ?_⟩
    unfold Timed.deadline
    simp only [h1]
    exact Nat.le_refl _

theorem TSteps.along (h : TSteps τ T0 T) (I : TInv τ T0) (hr : Reachable τ.cfg T0.s) (h0 : τ.flushTimeout ≠ 0) (hb : T0.s.bg ≠ .absent) :
    Along τ T0 T := by
  induction h with
  | refl => exact .refl I hb
  | step hs h1 ih => exact ih.step (hs.inv I hr) (hs.reachable hr) h0 h1

theorem kept_start {cfg : Cfg} {s : State} (h : Reachable cfg s) (x : Item) : (acceptedItems s.history).count x = Kept s.nextFlush x s := by
  have hall : s.flushes.filter (fun f => f.id ≤ s.nextFlush) = s.flushes := by
    rw [List.filter_eq_self]
    intro f hf
    have := (flush_inv h).ids f hf
    simp
    omega
  have := conserved h x
  simp only [Kept, heldUpTo, hall, if_true]
  simp only [heldItems] at this
  omega

theorem settled_in_time (hT : TReachable τ T0) (h : TSteps τ T0 T) (h0 : τ.flushTimeout ≠ 0) (hst : T.s.stopped = false)
    (hlate : T0.now + τ.longest < T.now) : Settled T0 T := by
  have I0 := hT.inv
  have hr0 := hT.untimed
  intro x
  by_cases hb : T0.s.bg = .absent
  · have : T0.s.started = false := by
      cases e : T0.s.started with
      | false => rfl
      | true => exact absurd hb (I0.started e)
    rw [(I0.unstarted this).2]
    exact Nat.zero_le _
  · have A := h.along I0 hr0 h0 hb
    have I := h.inv I0 hr0
    rw [kept_start hr0 x]
    refine Nat.le_trans (A.kept x) ?_
    have e1 : T.s.nextFlush ≠ T0.s.nextFlush := by
      intro e
      obtain ⟨h1, h2⟩ := (A.times hst).1 e
      have := I.now_le_deadline h0 h1 hst
      unfold Timing.longest at hlate
      unfold Timing.next at h2
      omega
    have e2 : T.s.flushes.filter (fun f => f.id ≤ T0.s.nextFlush) = [] := by
      rw [List.filter_eq_nil_iff]
      intro f hf hid
      have h1 := (A.times hst).2 f hf (by simpa using hid)
      have h2 := I.flush_bound h0 hf
      unfold Timing.longest at hlate
      unfold Timing.next at h1
      omega
    simp only [Kept, heldUpTo, e2, e1, if_false, List.flatMap_nil, List.count_nil]
    omega

end Appdash.Chunked
