import Verif.Spec.ChunkedTime
import Verif.Proofs.ChunkedHist

/-!
# Proofs about the chunked collector with time
-/

namespace Appdash.Chunked

variable {τ : Timing} {T T' : Timed}

theorem setAt_self (f : Nat → Nat) (a b : Nat) : setAt f a b a = b := by simp [setAt]
theorem setAt_ne (f : Nat → Nat) {a b x : Nat} (h : x ≠ a) : setAt f a b x = f x := by simp [setAt, h]

/-- Without the times, it is a step of `Verif.Model.Chunked`. -/
theorem TStep.untimed (h : TStep τ T T') : T'.s = T.s ∨ Step τ.cfg T.s T'.s := by
  cases h with
  | wait d _ => exact .inl rfl
  | collect d => exact .inr (.collect _ d)
  | flush => exact .inr (.flush _)
  | tick h _ => exact .inr (.tick _ h)
  | send f pre post d bef aft err h1 h2 _ => exact .inr (.send _ f pre post d bef aft err h1 h2)
  | sendTimeout f pre post d bef aft err h1 h2 h3 =>
    exact .inr (.sendTimeout _ f pre post d bef aft err (by simp [Timing.cfg, h3.1]) h1 h2)
  | flushEnd f pre post h1 h2 h3 => exact .inr (.flushEnd _ f pre post h1 h2 h3)
  | bgFlushEnd f pre post h1 h2 h3 => exact .inr (.bgFlushEnd _ f pre post h1 h2 h3)
  | store e h => exact .inr (.store _ e h)
  | exit h1 h2 => exact .inr (.exit _ h1 h2)
  | stop => exact .inr (.stop _)

theorem TSteps.reachable (h : TSteps τ T T') (hr : Reachable τ.cfg T.s) : Reachable τ.cfg T'.s := by
  induction h with
  | refl => exact hr
  | step _ hs ih =>
    rcases hs.untimed with e | e
    · rw [e]; exact ih
    · exact ih.step e

theorem TReachable.untimed (h : TReachable τ T) : Reachable τ.cfg T.s := TSteps.reachable h .init

theorem TSteps.trans {T'' : Timed} (h : TSteps τ T T') (h' : TSteps τ T' T'') : TSteps τ T T'' := by
  induction h' with
  | refl => exact h
  | step _ hs ih => exact ih.step hs

theorem TSteps.one (h : TStep τ T T') : TSteps τ T T' := (TSteps.refl T).step h

/-- What is true of the times. -/
structure TInv (τ : Timing) (T : Timed) : Prop where
  mayBe : T.MayBe τ T.now
  sinceLe : ∀ f ∈ T.s.flushes, T.start f.id ≤ T.since f.id ∧ T.since f.id ≤ T.now
  early : τ.flushTimeout ≠ 0 → ∀ f ∈ T.s.flushes,
    T.since f.id ≤ T.start f.id + τ.flushTimeout + (if f.remaining = [] then τ.collectTime else 0)
  bgSince : T.bgSince ≤ T.now
  running : ∀ g, T.s.bg = .flushing g → ∃ f ∈ T.s.flushes, f.id = g
  unstarted : T.s.started = false → T.s.bg = .absent ∧ acceptedItems T.s.history = []
  started : T.s.started = true → T.s.bg ≠ .absent
  closed : T.s.stopChan = .closed → T.s.stopped = true
  exited : T.s.bg = .exited → T.s.stopped = true
  ticksLe : ∀ t ∈ T.ticks, t ≤ T.now ∧ (T.s.bg = .waiting → t ≤ T.bgSince)
  apart : T.ticks.Pairwise fun a b => a + τ.minInterval ≤ b

theorem TInv.init : TInv τ {} := by
  constructor <;> simp [Timed.MayBe, acceptedItems]

/-- Events that do not change what has been accepted. -/
theorem accepted_snoc {h : List Event} {es : List Event} (he : ∀ e ∈ es, ∀ d err, e ≠ .collect d .queued err) :
    acceptedItems (h ++ es) = acceptedItems h := by
  have : acceptedItems es = [] := by
    simp only [acceptedItems, List.flatMap_eq_nil_iff]
    intro e hm
    split
    · next d err => exact absurd rfl (he _ hm d err)
    · rfl
  simp only [acceptedItems, List.flatMap_append] at this ⊢
  rw [this, List.append_nil]

theorem TInv.flushBegin (I : TInv τ T) (F : FlushInv T.s) {bg : Background} {ticks : List Nat}
    (hbg : (bg = T.s.bg ∧ ticks = T.ticks) ∨ (T.s.bg = .waiting ∧ T.bgSince + τ.minInterval ≤ T.now ∧ bg = .flushing T.s.nextFlush ∧ ticks = T.ticks ++ [T.now])) :
    TInv τ { T with
        s := { T.s.flushBegin with bg := bg }, start := setAt T.start T.s.nextFlush T.now
        since := setAt T.since T.s.nextFlush T.now, ticks := ticks } := by
  have hid : ∀ f ∈ T.s.flushes, f.id ≠ T.s.nextFlush := fun f hf => Nat.ne_of_lt (F.ids f hf)
  have hmem : ∀ f ∈ T.s.flushBegin.flushes, f ∈ T.s.flushes ∨ f = ⟨T.s.nextFlush, T.s.pending, []⟩ := by
    intro f hf
    simpa [State.flushBegin] using hf
  have hw : bg = .waiting → T.s.bg = .waiting := by
    rcases hbg with ⟨e, _⟩ | ⟨_, _, e, _⟩ <;> rw [e]
    · exact id
    · intro h; cases h
  constructor
  case mayBe =>
    refine ⟨fun h => I.mayBe.1 (hw h), fun e h => ?_, fun f hf => ?_⟩
    · rcases hbg with ⟨e', _⟩ | ⟨_, _, e', _⟩
      · exact I.mayBe.2.1 e (e'.symm.trans h)
      · rw [e'] at h; cases h
    · rcases hmem f hf with h | h
      · show _ ≤ setAt _ _ _ f.id + _
        rw [setAt_ne _ (hid f h)]
        exact I.mayBe.2.2 f h
      · subst h
        show T.now ≤ setAt _ _ _ T.s.nextFlush + _
        rw [setAt_self]
        exact Nat.le_add_right ..
  case sinceLe =>
    intro f hf
    rcases hmem f hf with h | h
    · show setAt _ _ _ f.id ≤ setAt _ _ _ f.id ∧ setAt _ _ _ f.id ≤ _
      rw [setAt_ne _ (hid f h), setAt_ne _ (hid f h)]
      exact I.sinceLe f h
    · subst h
      show setAt _ _ _ T.s.nextFlush ≤ setAt _ _ _ T.s.nextFlush ∧ setAt _ _ _ T.s.nextFlush ≤ _
      rw [setAt_self, setAt_self]
      exact ⟨Nat.le_refl _, Nat.le_refl _⟩
  case early =>
    intro h0 f hf
    rcases hmem f hf with h | h
    · show setAt _ _ _ f.id ≤ setAt _ _ _ f.id + _ + _
      rw [setAt_ne _ (hid f h), setAt_ne _ (hid f h)]
      exact I.early h0 f h
    · subst h
      show setAt _ _ _ T.s.nextFlush ≤ setAt _ _ _ T.s.nextFlush + _ + _
      rw [setAt_self, setAt_self]
      omega
  case bgSince => exact I.bgSince
  case running =>
    intro g hg
    rcases hbg with ⟨e, _⟩ | ⟨_, _, e, _⟩
    · obtain ⟨f, h1, h2⟩ := I.running g (e.symm.trans hg)
      exact ⟨f, by simp [State.flushBegin, h1], h2⟩
    · have : Background.flushing T.s.nextFlush = .flushing g := e.symm.trans hg
      cases this
      exact ⟨⟨T.s.nextFlush, T.s.pending, []⟩, by simp [State.flushBegin], rfl⟩
  case unstarted =>
    intro h
    obtain ⟨h1, h2⟩ := I.unstarted h
    rcases hbg with ⟨e, _⟩ | ⟨e, _⟩
    · exact ⟨e.trans h1, by
        show acceptedItems (T.s.history ++ _) = []
        rw [accepted_snoc (by simp), h2]⟩
    · rw [h1] at e; cases e
  case started =>
    intro h
    rcases hbg with ⟨e, _⟩ | ⟨_, _, e, _⟩
    · rw [e]; exact I.started h
    · rw [e]; intro e; cases e
  case closed => exact I.closed
  case exited =>
    rcases hbg with ⟨e, _⟩ | ⟨_, _, e, _⟩
    · rw [e]; exact I.exited
    · rw [e]; intro e; cases e
  case ticksLe =>
    intro t ht
    rcases hbg with ⟨e, e'⟩ | ⟨_, _, e, e'⟩
    · simp only [e', e] at ht ⊢
      exact I.ticksLe t ht
    · simp only [e', e, List.mem_append, List.mem_singleton] at ht ⊢
      refine ⟨?_, fun h => by cases h⟩
      rcases ht with ht | ht
      · exact (I.ticksLe t ht).1
      · rw [ht]; exact Nat.le_refl _
  case apart =>
    rcases hbg with ⟨e, e'⟩ | ⟨e1, e2, e, e'⟩
    · rw [e']; exact I.apart
    · rw [e']
      refine List.pairwise_append.2 ⟨I.apart, List.pairwise_singleton _ _, ?_⟩
      intro a ha b hb
      rw [List.mem_singleton] at hb
      subst hb
      have := (I.ticksLe a ha).2 e1
      omega

theorem TInv.sent (I : TInv τ T) (F : FlushInv T.s) {f : Flush} {pre post : List Flush} {rem : List Delivery} {errs : List Err} {es : List Event}
    (hf : T.s.flushes = pre ++ f :: post) (hrem : f.remaining ≠ [])
    (htime : τ.flushTimeout ≠ 0 → rem ≠ [] → T.now ≤ T.start f.id + τ.flushTimeout)
    (hes : ∀ e ∈ es, ∀ d err, e ≠ .collect d .queued err) :
    TInv τ { T with
        s := { T.s with flushes := pre ++ { f with remaining := rem, errs := errs } :: post, history := T.s.history ++ es }
        since := setAt T.since f.id T.now } := by
  have hfm : f ∈ T.s.flushes := by rw [hf]; simp
  have hother : ∀ g ∈ pre ++ post, g ∈ T.s.flushes ∧ g.id ≠ f.id := by
    intro g hg
    have hn := F.nodup
    rw [hf, List.map_append, List.map_cons, List.nodup_append] at hn
    obtain ⟨_, n2, n3⟩ := hn
    rw [List.mem_append] at hg
    rcases hg with hg | hg
    · refine ⟨by rw [hf]; simp [hg], fun e => ?_⟩
      exact n3 g.id (List.mem_map_of_mem hg) f.id (by simp) e
    · refine ⟨by rw [hf]; simp [hg], fun e => ?_⟩
      rw [List.nodup_cons] at n2
      exact n2.1 (e ▸ List.mem_map_of_mem hg)
  have hmem : ∀ g ∈ pre ++ { f with remaining := rem, errs := errs } :: post, g = { f with remaining := rem, errs := errs } ∨ g ∈ pre ++ post := by
    intro g hg
    simp only [List.mem_append, List.mem_cons] at hg ⊢
    grind
  constructor
  case mayBe =>
    refine ⟨I.mayBe.1, I.mayBe.2.1, fun g hg => ?_⟩
    rcases hmem g hg with h | h
    · subst h
      show T.now ≤ setAt _ _ _ f.id + _
      rw [setAt_self]
      exact Nat.le_add_right ..
    · obtain ⟨h1, h2⟩ := hother g h
      show _ ≤ setAt _ _ _ g.id + _
      rw [setAt_ne _ h2]
      exact I.mayBe.2.2 g h1
  case sinceLe =>
    intro g hg
    rcases hmem g hg with h | h
    · subst h
      show T.start f.id ≤ setAt _ _ _ f.id ∧ setAt _ _ _ f.id ≤ _
      rw [setAt_self]
      have := I.sinceLe f hfm
      exact ⟨by omega, Nat.le_refl _⟩
    · obtain ⟨h1, h2⟩ := hother g h
      show T.start g.id ≤ setAt _ _ _ g.id ∧ setAt _ _ _ g.id ≤ _
      rw [setAt_ne _ h2]
      exact I.sinceLe g h1
  case early =>
    intro h0 g hg
    rcases hmem g hg with h | h
    · subst h
      show setAt _ _ _ f.id ≤ T.start f.id + _ + (if rem = [] then _ else _)
      rw [setAt_self]
      split
      · have h1 := I.early h0 f hfm
        have h2 := I.mayBe.2.2 f hfm
        rw [if_neg hrem] at h1 h2
        omega
      · next hr => exact htime h0 hr
    · obtain ⟨h1, h2⟩ := hother g h
      show setAt _ _ _ g.id ≤ _
      rw [setAt_ne _ h2]
      exact I.early h0 g h1
  case bgSince => exact I.bgSince
  case running =>
    intro g hg
    obtain ⟨F', h1, h2⟩ := I.running g hg
    rw [hf] at h1
    simp only [List.mem_append, List.mem_cons] at h1
    rcases h1 with h1 | h1 | h1
    · exact ⟨F', by simp [h1], h2⟩
    · exact ⟨{ f with remaining := rem, errs := errs }, by simp, by rw [← h2, h1]⟩
    · exact ⟨F', by simp [h1], h2⟩
  case unstarted =>
    intro h
    exact ⟨(I.unstarted h).1, by show acceptedItems (T.s.history ++ es) = []; rw [accepted_snoc hes]; exact (I.unstarted h).2⟩
  case started => exact I.started
  case closed => exact I.closed
  case exited => exact I.exited
  case ticksLe => exact I.ticksLe
  case apart => exact I.apart

theorem TInv.ended (I : TInv τ T) {f : Flush} {pre post : List Flush} {bg : Background} {bgSince : Nat} {es : List Event}
    (hf : T.s.flushes = pre ++ f :: post)
    (hbg : (bg = T.s.bg ∧ bgSince = T.bgSince ∧ ∀ g, T.s.bg = .flushing g → g ≠ f.id) ∨
      (T.s.bg = .flushing f.id ∧ bgSince = T.now ∧ ((∃ e, bg = .failed e) ∨ bg = .waiting)))
    (hes : ∀ e ∈ es, ∀ d err, e ≠ .collect d .queued err) :
    TInv τ { T with s := { T.s with flushes := pre ++ post, bg := bg, history := T.s.history ++ es }, bgSince := bgSince } := by
  have hmem : ∀ g ∈ pre ++ post, g ∈ T.s.flushes := by
    intro g hg
    rw [hf]
    simp only [List.mem_append, List.mem_cons] at hg ⊢
    grind
  constructor
  case mayBe =>
    rcases hbg with ⟨e1, e2, _⟩ | ⟨_, e2, e1⟩
    · refine ⟨fun h => ?_, fun e h => ?_, fun g hg => I.mayBe.2.2 g (hmem g hg)⟩
      · simp only [e2]; exact I.mayBe.1 (e1.symm.trans h)
      · simp only [e2]; exact I.mayBe.2.1 e (e1.symm.trans h)
    · refine ⟨fun _ => ?_, fun _ _ => ?_, fun g hg => I.mayBe.2.2 g (hmem g hg)⟩ <;> simp only [e2] <;> omega
  case sinceLe => exact fun g hg => I.sinceLe g (hmem g hg)
  case early => exact fun h0 g hg => I.early h0 g (hmem g hg)
  case bgSince =>
    rcases hbg with ⟨_, e2, _⟩ | ⟨_, e2, _⟩ <;> simp only [e2]
    · exact I.bgSince
    · exact Nat.le_refl _
  case running =>
    intro g hg
    rcases hbg with ⟨e1, _, e3⟩ | ⟨_, _, e1⟩
    · have hg' := e1.symm.trans hg
      obtain ⟨F', h1, h2⟩ := I.running g hg'
      refine ⟨F', ?_, h2⟩
      have hne : F' ≠ f := fun e => e3 g hg' (by rw [← h2, e])
      rw [hf] at h1
      simp only [List.mem_append, List.mem_cons] at h1 ⊢
      grind
    · have hg' : bg = .flushing g := hg
      rcases e1 with ⟨e, e1⟩ | e1 <;> rw [e1] at hg' <;> cases hg'
  case unstarted =>
    intro h
    obtain ⟨h1, h2⟩ := I.unstarted h
    rcases hbg with ⟨e1, _⟩ | ⟨e1, _⟩
    · exact ⟨e1.trans h1, by show acceptedItems (T.s.history ++ es) = []; rw [accepted_snoc hes]; exact h2⟩
    · rw [h1] at e1; cases e1
  case started =>
    intro h
    rcases hbg with ⟨e1, _⟩ | ⟨_, _, e1⟩
    · rw [e1]; exact I.started h
    · rcases e1 with ⟨e, e1⟩ | e1 <;> rw [e1] <;> intro h <;> cases h
  case closed => exact I.closed
  case exited =>
    rcases hbg with ⟨e1, _⟩ | ⟨_, _, e1⟩
    · rw [e1]; exact I.exited
    · rcases e1 with ⟨e, e1⟩ | e1 <;> rw [e1] <;> intro h <;> cases h
  case ticksLe =>
    intro t ht
    refine ⟨(I.ticksLe t ht).1, ?_⟩
    rcases hbg with ⟨e1, e2, _⟩ | ⟨_, e2, _⟩
    · rw [e1, e2]; exact (I.ticksLe t ht).2
    · rw [e2]; exact fun _ => (I.ticksLe t ht).1
  case apart => exact I.apart

theorem TInv.step (I : TInv τ T) (hr : Reachable τ.cfg T.s) (h : TStep τ T T') : TInv τ T' := by
  have F := flush_inv hr
  cases h with
  | wait d hm =>
    refine ⟨hm, fun f hf => ⟨(I.sinceLe f hf).1, Nat.le_trans (I.sinceLe f hf).2 (Nat.le_add_right ..)⟩, I.early, Nat.le_trans I.bgSince (Nat.le_add_right ..),
      I.running, I.unstarted, I.started, I.closed, I.exited, fun t ht => ⟨Nat.le_trans (I.ticksLe t ht).1 (Nat.le_add_right ..), (I.ticksLe t ht).2⟩, I.apart⟩
  | collect d =>
    have common : ∀ s' : State, s'.flushes = T.s.flushes → s'.started = true → (T.s.started = true → s'.bg = T.s.bg ∧ s'.stopChan = T.s.stopChan) →
        (T.s.started = false → s'.bg = .waiting ∧ s'.stopChan = .opened) → T.s.stopped = false → s'.stopped = false →
        TInv τ { T with s := s', bgSince := if T.s.started then T.bgSince else T.now } := by
      intro s' h1 h2 h3 h4 h5 h6
      cases hst : T.s.started with
      | true =>
        obtain ⟨h7, h8⟩ := h3 hst
        simp only [if_true]
        constructor
        case mayBe =>
          refine ⟨fun h => I.mayBe.1 (h7.symm.trans h), fun e h => I.mayBe.2.1 e (h7.symm.trans h), fun f hf => I.mayBe.2.2 f (h1 ▸ hf)⟩
        case sinceLe => exact fun f hf => I.sinceLe f (h1 ▸ hf)
        case early => exact fun h0 f hf => I.early h0 f (h1 ▸ hf)
        case bgSince => exact I.bgSince
        case running =>
          intro g hg
          simp only [h1]
          exact I.running g (h7.symm.trans hg)
        case unstarted => intro h; simp only [h2] at h; cases h
        case started => intro _; simp only [h7]; exact I.started hst
        case closed =>
          intro h
          have := I.closed (h8.symm.trans h)
          rw [h5] at this; cases this
        case exited =>
          intro h
          have := I.exited (h7.symm.trans h)
          rw [h5] at this; cases this
        case ticksLe => simp only [h7]; exact I.ticksLe
        case apart => exact I.apart
      | false =>
        obtain ⟨h7, h8⟩ := h4 hst
        obtain ⟨u1, u2⟩ := I.unstarted hst
        simp only [Bool.false_eq_true, if_false]
        constructor
        case mayBe =>
          refine ⟨fun _ => ?_, fun e h => ?_, fun f hf => I.mayBe.2.2 f (h1 ▸ hf)⟩
          · show T.now ≤ T.now + _ + _
            omega
          · rw [show s'.bg = .waiting from h7] at h; cases h
        case sinceLe => exact fun f hf => I.sinceLe f (h1 ▸ hf)
        case early => exact fun h0 f hf => I.early h0 f (h1 ▸ hf)
        case bgSince => exact Nat.le_refl _
        case running => intro g hg; rw [show s'.bg = .waiting from h7] at hg; cases hg
        case unstarted => intro h; simp only [h2] at h; cases h
        case started => intro _ h; rw [show s'.bg = .waiting from h7] at h; cases h
        case closed => intro h; rw [show s'.stopChan = .opened from h8] at h; cases h
        case exited => intro h; rw [show s'.bg = .waiting from h7] at h; cases h
        case ticksLe => exact fun t ht => ⟨(I.ticksLe t ht).1, fun _ => (I.ticksLe t ht).1⟩
        case apart => exact I.apart
    cases collect_cases τ.cfg T.s d with
    | refused e _ h3 =>
      rw [h3]
      by_cases hst : T.s.started = true
      · rw [if_pos hst]
        exact ⟨I.mayBe, I.sinceLe, I.early, I.bgSince, I.running, (fun h => by simp only [hst] at h; cases h), I.started, I.closed, I.exited,
          I.ticksLe, I.apart⟩
      · rw [if_neg hst]
        obtain ⟨u1, u2⟩ := I.unstarted (by simpa using hst)
        refine ⟨⟨fun h => ?_, fun e h => ?_, I.mayBe.2.2⟩, I.sinceLe, I.early, Nat.le_refl _, I.running, fun h => ⟨u1, ?_⟩, I.started, I.closed,
          I.exited, fun t ht => ⟨(I.ticksLe t ht).1, fun _ => (I.ticksLe t ht).1⟩, I.apart⟩
        · rw [show T.s.bg = .absent from u1] at h; cases h
        · rw [show T.s.bg = .absent from u1] at h; cases h
        · show acceptedItems (T.s.history ++ _) = []
          rw [accepted_snoc (by simp), u2]
    | dropped h1 h2 h3 h4 h5 h6 h7 h8 h9 h10 h11 h12 h13 h14 => exact common _ h9 h12 h13 h14 h1 h11
    | queued h1 h2 h3 h4 h5 h6 h7 h8 h9 h10 h11 h12 h13 => exact common _ h8 h11 h12 h13 h1 h10
  | flush => exact I.flushBegin F (.inl ⟨rfl, rfl⟩)
  | tick h1 h2 => exact I.flushBegin F (.inr ⟨h1, h2, rfl, rfl⟩)
  | send f pre post d bef aft err h1 h2 h3 =>
    refine I.sent F h1 (by rw [h2]; simp) ?_ (by simp)
    intro h0 _
    have : T.now - T.start f.id ≤ τ.flushTimeout := Nat.le_of_not_lt fun h => h3 ⟨h0, h⟩
    omega
  | sendTimeout f pre post d bef aft err h1 h2 h3 => exact I.sent F h1 (by rw [h2]; simp) (fun _ h => absurd rfl h) (by simp)
  | flushEnd f pre post h1 h2 h3 => exact I.ended (bgSince := T.bgSince) h1 (.inl ⟨rfl, rfl, h3⟩) (by simp)
  | bgFlushEnd f pre post h1 h2 h3 =>
    refine I.ended h1 (.inr ⟨h3, rfl, ?_⟩) (by simp)
    split
    · exact .inl ⟨_, rfl⟩
    · exact .inr rfl
  | store e he =>
    refine ⟨⟨fun _ => ?_, (fun e h => by cases h), I.mayBe.2.2⟩, I.sinceLe, I.early, Nat.le_refl _, (fun g hg => by cases hg), fun h => ?_,
      (fun _ h => by cases h), I.closed, (fun h => by cases h), fun t ht => ⟨(I.ticksLe t ht).1, fun _ => (I.ticksLe t ht).1⟩, I.apart⟩
    · show T.now ≤ T.now + _ + _
      omega
    · have := (I.unstarted h).1
      rw [he] at this; cases this
  | exit h1 h2 =>
    refine ⟨⟨(fun h => by cases h), (fun e h => by cases h), I.mayBe.2.2⟩, I.sinceLe, I.early, I.bgSince, (fun g hg => by cases hg), fun h => ?_,
      (fun _ h => by cases h), I.closed, fun _ => I.closed h2, fun t ht => ⟨(I.ticksLe t ht).1, (fun h => by cases h)⟩, I.apart⟩
    have := (I.unstarted h).1
    rw [h1] at this; cases this
  | stop =>
    have hh : ∃ e, T.s.stop.history = T.s.history ++ [e] ∧ ∀ d err, e ≠ .collect d .queued err := by
      unfold State.stop
      split
      · exact ⟨_, rfl, by simp⟩
      · exact ⟨_, rfl, by simp⟩
    have h1 : T.s.stop.bg = T.s.bg := by unfold State.stop; split <;> rfl
    have h2 : T.s.stop.flushes = T.s.flushes := by unfold State.stop; split <;> rfl
    have h3 : T.s.stop.started = T.s.started := by unfold State.stop; split <;> rfl
    have h4 : T.s.stop.stopChan = .closed → T.s.stop.stopped = true := by
      unfold State.stop
      split
      · intro _; rfl
      · exact I.closed
    have h5 : T.s.stopped = true → T.s.stop.stopped = true := by
      unfold State.stop
      split
      · intro _; rfl
      · exact id
    obtain ⟨e, he, he'⟩ := hh
    refine ⟨⟨fun h => I.mayBe.1 (h1.symm.trans h), fun e h => I.mayBe.2.1 e (h1.symm.trans h), fun f hf => I.mayBe.2.2 f (h2 ▸ hf)⟩,
      fun f hf => I.sinceLe f (h2 ▸ hf), fun h0 f hf => I.early h0 f (h2 ▸ hf), I.bgSince, fun g hg => ?_, fun h => ?_, fun h => ?_, h4, fun h => ?_,
      fun t ht => ⟨(I.ticksLe t ht).1, fun h => (I.ticksLe t ht).2 (h1.symm.trans h)⟩, I.apart⟩
    · simp only [h2]; exact I.running g (h1.symm.trans hg)
    · obtain ⟨u1, u2⟩ := I.unstarted (h3.symm.trans h)
      refine ⟨h1.trans u1, ?_⟩
      show acceptedItems T.s.stop.history = []
      rw [he, accepted_snoc (by simpa using he'), u2]
    · simp only [h1]; exact I.started (h3.symm.trans h)
    · exact h5 (I.exited (h1.symm.trans h))

theorem TSteps.inv (h : TSteps τ T T') (I : TInv τ T) (hr : Reachable τ.cfg T.s) : TInv τ T' := by
  induction h with
  | refl => exact I
  | step hs h1 ih => exact ih.step (hs.reachable hr) h1

theorem TReachable.inv (h : TReachable τ T) : TInv τ T := TSteps.inv h .init .init

end Appdash.Chunked
