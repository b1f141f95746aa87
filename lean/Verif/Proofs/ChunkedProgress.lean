import Verif.Proofs.ChunkedDeadline

/-!
# Proofs: time goes on
-/

namespace Appdash.Chunked

variable {τ : Timing} {T T' : Timed}

/-- Steps of goroutines of the collector and of running flushes, and time; no calls. -/
inductive Inner (τ : Timing) : Timed → Timed → Prop
  | refl (T : Timed) : Inner τ T T
  | step {T T' T'' : Timed} : Inner τ T T' → TStep τ T' T'' → T''.s.stopped = T'.s.stopped → acceptedItems T''.s.history = acceptedItems T'.s.history →
      Inner τ T T''

theorem Inner.steps (h : Inner τ T T') : TSteps τ T T' := by
  induction h with
  | refl => exact .refl _
  | step _ hs _ _ ih => exact ih.step hs

theorem Inner.stopped (h : Inner τ T T') : T'.s.stopped = T.s.stopped := by
  induction h with
  | refl => rfl
  | step _ _ e _ ih => exact e.trans ih

theorem Inner.accepted (h : Inner τ T T') : acceptedItems T'.s.history = acceptedItems T.s.history := by
  induction h with
  | refl => rfl
  | step _ _ _ e ih => exact e.trans ih

theorem Inner.trans {T'' : Timed} (h : Inner τ T T') (h' : Inner τ T' T'') : Inner τ T T'' := by
  induction h' with
  | refl => exact h
  | step _ hs e1 e2 ih => exact ih.step hs e1 e2

/-- Running flushes can end at once. -/
theorem drain : ∀ (n : Nat) (T : Timed), (T.s.flushes.map fun f => f.remaining.length + 1).sum ≤ n →
    ∃ T', Inner τ T T' ∧ T'.s.flushes = [] ∧ T'.now = T.now ∧
      ((∃ g, T.s.bg = .flushing g) → (∃ g, T'.s.bg = .flushing g) ∨ T'.bgSince = T.now) ∧
      ((∀ g, T.s.bg ≠ .flushing g) → T'.s.bg = T.s.bg ∧ T'.bgSince = T.bgSince)
  | n, T, hn => by
    cases hf : T.s.flushes with
    | nil => exact ⟨T, .refl _, hf, rfl, fun h => .inl h, fun _ => ⟨rfl, rfl⟩⟩
    | cons f post =>
      rw [hf, List.map_cons, List.sum_cons] at hn
      cases n with
      | zero => omega
      | succ n =>
        have key : ∀ T1, TStep τ T T1 → (T1.s.flushes.map fun f => f.remaining.length + 1).sum ≤ n → T1.s.stopped = T.s.stopped →
            acceptedItems T1.s.history = acceptedItems T.s.history → T1.now = T.now →
            ((T1.s.bg = T.s.bg ∧ T1.bgSince = T.bgSince) ∨ ((∃ g, T.s.bg = .flushing g) ∧ (∀ g, T1.s.bg ≠ .flushing g) ∧ T1.bgSince = T.now)) →
            ∃ T', Inner τ T T' ∧ T'.s.flushes = [] ∧ T'.now = T.now ∧
              ((∃ g, T.s.bg = .flushing g) → (∃ g, T'.s.bg = .flushing g) ∨ T'.bgSince = T.now) ∧
              ((∀ g, T.s.bg ≠ .flushing g) → T'.s.bg = T.s.bg ∧ T'.bgSince = T.bgSince) := by
          intro T1 k1 k2 k3 k4 k5 k6
          obtain ⟨T', h1, h2, h3, h4, h5⟩ := drain n T1 k2
          refine ⟨T', Inner.trans ((Inner.refl T).step k1 k3 k4) h1, h2, h3.trans k5, ?_⟩
          rcases k6 with ⟨e1, e2⟩ | ⟨⟨g, e1⟩, e2, e3⟩
          · rw [e1, k5] at h4
            rw [e1, e2] at h5
            exact ⟨h4, h5⟩
          · exact ⟨fun _ => .inr ((h5 e2).2.trans e3), fun h => absurd e1 (h g)⟩
        cases hr : f.remaining with
        | nil =>
          rw [hr] at hn
          simp only [List.length_nil] at hn
          by_cases hb : T.s.bg = .flushing f.id
          · refine key _ (.bgFlushEnd T f [] post hf hr hb) (by simp only [List.nil_append]; omega) rfl (accepted_snoc (by simp)) rfl
              (.inr ⟨⟨_, hb⟩, fun g => ?_, rfl⟩)
            show (match flushErr f.errs with | some e => Background.failed e | none => .waiting) ≠ .flushing g
            split <;> intro h <;> cases h
          · exact key _ (.flushEnd T f [] post hf hr fun g hg e => hb (by rw [hg, e])) (by simp only [List.nil_append]; omega) rfl
              (accepted_snoc (by simp)) rfl (.inl ⟨rfl, rfl⟩)
        | cons d rest =>
          rw [hr] at hn
          simp only [List.length_cons] at hn
          by_cases hto : τ.flushTimeout ≠ 0 ∧ T.now - T.start f.id > τ.flushTimeout
          · exact key _ (.sendTimeout T f [] post d [] rest none hf hr hto)
              (by simp only [List.nil_append, List.map_cons, List.sum_cons, List.length_nil]; omega) rfl (accepted_snoc (by simp)) rfl (.inl ⟨rfl, rfl⟩)
          · exact key _ (.send T f [] post d [] rest none hf hr hto)
              (by simp only [List.nil_append, List.map_cons, List.sum_cons]; omega) rfl (accepted_snoc (by simp)) rfl (.inl ⟨rfl, rfl⟩)

theorem wait_more (hf : T.s.flushes = []) (hb : T.s.bg = .waiting → T.now + 1 ≤ T.bgSince + τ.minInterval + τ.delay) (hn : ∀ e, T.s.bg ≠ .failed e) :
    ∃ T', Inner τ T T' ∧ T.now < T'.now :=
  ⟨{ T with now := T.now + 1 }, (Inner.refl T).step (.wait T 1 ⟨hb, fun e h => absurd h (hn e), fun f h => by rw [hf] at h; cases h⟩) rfl rfl,
    Nat.lt_succ_self _⟩

/-- Once the flushes have ended and the timer has just been started, time can pass. -/
theorem wait_fresh (hτ : 0 < τ.minInterval + τ.delay) (hf : T.s.flushes = []) (hg : ∀ g, T.s.bg ≠ .flushing g)
    (hs : T.s.bg = .waiting → T.bgSince = T.now) : ∃ T', Inner τ T T' ∧ T.now < T'.now := by
  cases hb : T.s.bg with
  | failed e =>
    obtain ⟨T', h1, h2⟩ := wait_more (τ := τ) (T := { T with
      s := { T.s with lastErr := some e, bg := .waiting, history := T.s.history ++ [.stored e] }, bgSince := T.now }) hf
      (fun _ => by show T.now + 1 ≤ T.now + _ + _; omega) (fun e h => by cases h)
    exact ⟨T', Inner.trans ((Inner.refl T).step (.store T e hb) rfl (accepted_snoc (by simp))) h1, h2⟩
  | waiting => exact wait_more hf (fun h => by rw [hs h]; omega) (fun e h => by rw [hb] at h; cases h)
  | flushing g => exact absurd hb (hg g)
  | absent => exact wait_more hf (fun h => by rw [hb] at h; cases h) (fun e h => by rw [hb] at h; cases h)
  | exited => exact wait_more hf (fun h => by rw [hb] at h; cases h) (fun e h => by rw [hb] at h; cases h)

theorem not_flushing (I : TInv τ T) (hf : T.s.flushes = []) (g : Nat) : T.s.bg ≠ .flushing g := by
  intro h
  obtain ⟨f, h1, _⟩ := I.running g h
  rw [hf] at h1
  cases h1

theorem some_time (hτ : 0 < τ.minInterval + τ.delay) (hT : TReachable τ T) : ∃ T', Inner τ T T' ∧ T.now < T'.now := by
  obtain ⟨T1, a1, a2, a3, a4, a5⟩ := drain (τ := τ) _ T (Nat.le_refl _)
  have r1 : TReachable τ T1 := TSteps.trans hT a1.steps
  have I1 := r1.inv
  by_cases hw : T1.s.bg = .waiting ∧ ¬ T1.now + 1 ≤ T1.bgSince + τ.minInterval + τ.delay
  · -- the timer fires
    obtain ⟨hw, hlate⟩ := hw
    have htick : TStep τ T1 _ := .tick T1 hw (by omega)
    obtain ⟨T3, c1, c2, c3, c4, c5⟩ := drain (τ := τ) _ ({ T1 with
        s := { T1.s.flushBegin with bg := .flushing T1.s.nextFlush }, start := setAt T1.start T1.s.nextFlush T1.now
        since := setAt T1.since T1.s.nextFlush T1.now, ticks := T1.ticks ++ [T1.now] } : Timed) (Nat.le_refl _)
    have s12 : Inner τ T1 T3 := Inner.trans ((Inner.refl T1).step htick rfl (accepted_snoc (by simp))) c1
    have r3 : TReachable τ T3 := TSteps.trans r1 s12.steps
    have hnf := not_flushing r3.inv c2
    have hfresh : T3.bgSince = T3.now := by
      rcases c4 ⟨_, rfl⟩ with ⟨g, hg⟩ | h
      · exact absurd hg (hnf g)
      · rw [h, c3]
    obtain ⟨T4, d1, d2⟩ := wait_fresh hτ c2 hnf fun _ => hfresh
    refine ⟨T4, a1.trans (s12.trans d1), ?_⟩
    rw [c3] at d2
    show T.now < T4.now
    have : T1.now < T4.now := d2
    omega
  · have hnf := not_flushing I1 a2
    by_cases hb : T1.s.bg = .waiting
    · obtain ⟨T', h1, h2⟩ := wait_more (τ := τ) a2 (fun _ => Nat.le_of_not_lt fun h => hw ⟨hb, by omega⟩) (fun e h => by rw [hb] at h; cases h)
      exact ⟨T', a1.trans h1, by omega⟩
    · obtain ⟨T', h1, h2⟩ := wait_fresh hτ a2 hnf fun h => absurd h hb
      exact ⟨T', a1.trans h1, by omega⟩

theorem any_time (hτ : 0 < τ.minInterval + τ.delay) (hT : TReachable τ T) : ∀ n, ∃ T', Inner τ T T' ∧ T.now + n ≤ T'.now
  | 0 => ⟨T, .refl T, Nat.le_refl _⟩
  | n + 1 => by
    obtain ⟨T1, h1, h2⟩ := any_time hτ hT n
    obtain ⟨T2, h3, h4⟩ := some_time hτ (TSteps.trans hT h1.steps)
    exact ⟨T2, h1.trans h3, by omega⟩

end Appdash.Chunked
