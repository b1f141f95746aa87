import Mathlib.Data.List.Induction
import Verif.Spec.Cancel
import Mathlib.Data.List.Infix

namespace Appdash

open Spec

theorem TransportState.run_append (b : Bool) (s : TransportState) (as bs : List TransportAct) :
    s.run b (as ++ bs) = (s.run b as).bind fun s => s.run b bs := by
  induction as generalizing s with
  | nil => rfl
  | cons a as ih =>
    simp only [List.cons_append, TransportState.run]
    cases s.step b a with
    | none => rfl
    | some s' => exact ih s'

/-- The clone of the trip is registered, unless another trip of the same request interfered. -/
def Trip.Held (t : Trip) : Prop := t.phase = .registered ∨ t.phase = .inside ∨ t.phase = .left

structure TInv (b : Bool) (s : TransportState) : Prop where
  entry : ∀ o c, s.requests.get o = some c → ∃ k t, s.trips k = some t ∧ t.original = o ∧ t.clone = c ∧ t.Held
  fresh : ∀ k t, s.trips k = some t → t.original < t.clone ∧ t.clone < s.next
  uniq : ∀ k k' t t', s.trips k = some t → s.trips k' = some t' → t.clone = t'.clone → k = k'
  entered : ∀ k c, .roundTrip k c ∈ s.log → ∃ t, s.trips k = some t ∧ t.clone = c
  fwd : ∀ j, forwarded j s.log = match s.cancels j with
    | some ⟨_, some c, true⟩ => if b then [c] else []
    | _ => []

theorem TInv.new (b : Bool) : TInv b .new := by
  constructor <;> simp [TransportState.new, forwarded]

theorem forwarded_append (j : Nat) (l m : List InnerCall) : forwarded j (l ++ m) = forwarded j l ++ forwarded j m := by
  simp [forwarded, List.filterMap_append]

theorem forwarded_roundTrip (j k c : Nat) : forwarded j [.roundTrip k c] = [] := rfl

theorem forwarded_cancel (j k c : Nat) : forwarded j [.cancel k c] = if k = j then [c] else [] := by
  simp only [forwarded, List.filterMap_cons, List.filterMap_nil]
  split <;> simp_all

theorem TInv.step {b : Bool} {s s' : TransportState} {a : TransportAct} (I : TInv b s) (h : s.step b a = some s') : TInv b s' := by
  obtain ⟨I1, I2, I3, I4, I5⟩ := I
  cases a with
  | start k o =>
    simp only [TransportState.step] at h
    split at h
    · injection h with h; subst h
      constructor <;> simp only [updateAt] <;> intros <;> grind [Trip.Held]
    · cases h
  | register k =>
    simp only [TransportState.step] at h
    split at h
    · injection h with h; subst h
      constructor <;> simp only [updateAt, setCloneRequest, AMap.get_set] <;> intros <;> grind [Trip.Held]
    · cases h
  | enter k =>
    simp only [TransportState.step] at h
    split at h
    · injection h with h; subst h
      constructor <;> simp only [updateAt, forwarded_append, forwarded_roundTrip, List.append_nil, List.mem_append, List.mem_singleton] <;> intros <;> grind [Trip.Held]
    · cases h
  | leave k =>
    simp only [TransportState.step] at h
    split at h
    · injection h with h; subst h
      constructor <;> simp only [updateAt] <;> intros <;> grind [Trip.Held]
    · cases h
  | finish k =>
    simp only [TransportState.step] at h
    split at h
    · injection h with h; subst h
      constructor <;> simp only [updateAt, setCloneRequest, AMap.get_del] <;> intros <;> grind [Trip.Held]
    · cases h
  | cancel j o =>
    simp only [TransportState.step] at h
    split at h
    · split at h
      all_goals
        injection h with h; subst h
        refine ⟨I1, I2, I3, I4, fun i => ?_⟩
        have := I5 i
        simp only [updateAt]
        split <;> grind
    · cases h
  | forward j =>
    simp only [TransportState.step] at h
    split at h
    · injection h with h; subst h
      refine ⟨I1, I2, I3, ?_, fun i => ?_⟩
      · intro k c hm
        refine I4 k c ?_
        cases b <;> simpa using hm
      · have := I5 i
        simp only [updateAt]
        cases b
        · simp only [Bool.false_eq_true, if_false] at this ⊢
          grind
        · simp only [if_true, forwarded_append, forwarded_cancel] at this ⊢
          by_cases e : i = j
          · subst e
            rename_i hc
            rw [hc] at this
            simp [this]
          · have e' : ¬ j = i := fun h => e h.symm
            simpa [e, e'] using this
    · cases h

theorem TInv.run {b : Bool} {acts : List TransportAct} : ∀ {s s' : TransportState}, TInv b s → s.run b acts = some s' → TInv b s' := by
  induction acts with
  | nil => intro s s' I h; injection h with h; exact h ▸ I
  | cons a as ih =>
    intro s s' I h
    simp only [TransportState.run] at h
    split at h
    · cases h
    · rename_i s1 h1
      exact ih (I.step h1) h

/-- Without reuse the clone of a held trip is registered. -/
theorem held_registered {b : Bool} {acts : List TransportAct} (hn : NoReuse b acts) : ∀ {s : TransportState},
    TransportState.new.run b acts = some s → ∀ k t, s.trips k = some t → t.Held → s.requests.get t.original = some t.clone := by
  induction acts using List.reverseRecOn with
  | nil =>
    intro s h k t hk
    injection h with h
    subst h
    cases hk
  | append_singleton as a ih =>
    intro s' h
    rw [TransportState.run_append] at h
    cases hs : TransportState.new.run b as with
    | none => rw [hs] at h; cases h
    | some s =>
      rw [hs] at h
      simp only [Option.bind, TransportState.run] at h
      have I := (TInv.new b).run hs
      have ex := hn as (List.prefix_append _ _) s hs
      have ih := ih (fun pre hp => hn pre (hp.trans (List.prefix_append _ _))) hs
      cases hstep : s.step b a with
      | none => rw [hstep] at h; cases h
      | some s1 =>
        rw [hstep] at h
        injection h with h
        subst h
        clear hn hs
        obtain ⟨I1, I2, I3, I4, I5⟩ := I
        cases a with
        | start k o =>
          simp only [TransportState.step] at hstep
          split at hstep
          · injection hstep with h; subst h
            simp only [updateAt]
            grind [Trip.Held]
          · cases hstep
        | register k =>
          simp only [TransportState.step] at hstep
          split at hstep
          · injection hstep with h; subst h
            simp only [updateAt, setCloneRequest, AMap.get_set]
            grind [Trip.Held, Trip.Running]
          · cases hstep
        | enter k =>
          simp only [TransportState.step] at hstep
          split at hstep
          · injection hstep with h; subst h
            simp only [updateAt]
            grind [Trip.Held]
          · cases hstep
        | leave k =>
          simp only [TransportState.step] at hstep
          split at hstep
          · injection hstep with h; subst h
            simp only [updateAt]
            grind [Trip.Held]
          · cases hstep
        | finish k =>
          simp only [TransportState.step] at hstep
          split at hstep
          · injection hstep with h; subst h
            simp only [updateAt, setCloneRequest, AMap.get_del]
            grind [Trip.Held, Trip.Running]
          · cases hstep
        | cancel j o =>
          simp only [TransportState.step] at hstep
          split at hstep
          · split at hstep
            all_goals
              injection hstep with h; subst h
              exact ih
          · cases hstep
        | forward j =>
          simp only [TransportState.step] at hstep
          split at hstep
          · injection hstep with h; subst h
            exact ih
          · cases hstep

/-- What a cancellation found does not change. -/
theorem found_stays {b : Bool} {acts : List TransportAct} {j : Nat} {o : Nat} {f : Option Nat} : ∀ {s s' : TransportState},
    (∃ d, s.cancels j = some ⟨o, f, d⟩) → s.run b acts = some s' → ∃ d, s'.cancels j = some ⟨o, f, d⟩ := by
  induction acts with
  | nil => intro s s' I h; injection h with h; exact h ▸ I
  | cons a as ih =>
    intro s s' I h
    simp only [TransportState.run] at h
    split at h
    · cases h
    · rename_i s1 h1
      refine ih ?_ h
      clear ih h
      cases a <;> simp only [TransportState.step] at h1 <;> (split at h1) <;> try (cases h1; done)
      all_goals first
        | (injection h1 with h1; subst h1; exact I)
        | skip
      · split at h1 <;> (injection h1 with h1; subst h1; simp only [updateAt]; grind)
      · injection h1 with h1; subst h1; simp only [updateAt]; grind

/-- Where a cancellation found its clone. -/
theorem found_origin {b : Bool} {acts : List TransportAct} {j o c : Nat} {d : Bool} : ∀ {s : TransportState},
    TransportState.new.run b acts = some s → s.cancels j = some ⟨o, some c, d⟩ →
    ∃ pre post s0, acts = pre ++ .cancel j o :: post ∧ TransportState.new.run b pre = some s0 ∧ s0.requests.get o = some c := by
  induction acts using List.reverseRecOn generalizing d with
  | nil =>
    intro s h hk
    injection h with h
    subst h
    cases hk
  | append_singleton as a ih =>
    intro s' h hj
    rw [TransportState.run_append] at h
    cases hs : TransportState.new.run b as with
    | none => rw [hs] at h; cases h
    | some s =>
      rw [hs] at h
      simp only [Option.bind, TransportState.run] at h
      cases hstep : s.step b a with
      | none => rw [hstep] at h; cases h
      | some s1 =>
        rw [hstep] at h
        injection h with h
        subst h
        by_cases hold : ∃ d, s.cancels j = some ⟨o, some c, d⟩
        · obtain ⟨d, hd⟩ := hold
          obtain ⟨pre, post, s0, e, h1, h2⟩ := ih hs hd
          exact ⟨pre, post ++ [a], s0, by rw [e]; simp, h1, h2⟩
        · cases a <;> simp only [TransportState.step] at hstep <;> (split at hstep) <;> try (cases hstep; done)
          all_goals first
            | (injection hstep with h1; subst h1; refine (hold (Exists.intro d ?_)).elim; exact hj)
            | skip
          · split at hstep
            · injection hstep with h1; subst h1
              simp only [updateAt] at hj
              split at hj
              · injection hj with hj
                injection hj with h1 h2 h3
                injection h2 with h2
                subst h1 h2
                subst j
                exact ⟨as, [], s, rfl, hs, by assumption⟩
              · exact absurd ⟨_, hj⟩ hold
            · injection hstep with h1; subst h1
              simp only [updateAt] at hj
              split at hj
              · injection hj with hj
                injection hj with h1 h2 h3
                cases h2
              · exact absurd ⟨_, hj⟩ hold
          · injection hstep with h1; subst h1
            simp only [updateAt] at hj
            split at hj
            · injection hj with hj
              injection hj with h1 h2 h3
              injection h2 with h2
              subst h1 h2
              subst j
              exact absurd ⟨_, by assumption⟩ hold
            · exact absurd ⟨_, hj⟩ hold

theorem inside_logged {b : Bool} {acts : List TransportAct} {k o c : Nat} : ∀ {s : TransportState},
    TransportState.new.run b acts = some s → s.trips k = some ⟨o, c, .inside⟩ → .roundTrip k c ∈ s.log := by
  induction acts using List.reverseRecOn with
  | nil =>
    intro s h hk
    injection h with h
    subst h
    cases hk
  | append_singleton as a ih =>
    intro s' h hk
    rw [TransportState.run_append] at h
    cases hs : TransportState.new.run b as with
    | none => rw [hs] at h; cases h
    | some s =>
      rw [hs] at h
      simp only [Option.bind, TransportState.run] at h
      have ih := ih hs
      cases hstep : s.step b a with
      | none => rw [hstep] at h; cases h
      | some s1 =>
        rw [hstep] at h
        injection h with h
        subst h
        cases a <;> simp only [TransportState.step] at hstep <;> (split at hstep) <;> try (cases hstep; done)
        rotate_left 5
        · split at hstep <;> (injection hstep with h1; subst h1; exact ih hk)
        · injection hstep with h1
          subst h1
          have := ih hk
          cases b <;> simp [this]
        all_goals
          injection hstep with h1
          subst h1
          simp only [updateAt] at hk ⊢
          grind

/-- Only calls that were made exist. -/
theorem trips_started {b : Bool} {acts : List TransportAct} {k : Nat} : ∀ {s s' : TransportState},
    s.run b acts = some s' → s'.trips k ≠ none → s.trips k ≠ none ∨ ∃ o, .start k o ∈ acts := by
  induction acts with
  | nil => intro s s' h hk; injection h with h; subst h; exact .inl hk
  | cons a as ih =>
    intro s s' h hk
    simp only [TransportState.run] at h
    split at h
    · cases h
    · rename_i s1 h1
      rcases ih h hk with h2 | ⟨o, h2⟩
      · clear ih h
        cases a with
        | cancel j o =>
          simp only [TransportState.step] at h1
          split at h1
          · split at h1 <;> (injection h1 with h1; subst h1; exact .inl h2)
          · cases h1
        | forward j =>
          simp only [TransportState.step] at h1
          split at h1
          · injection h1 with h1; subst h1; exact .inl h2
          · cases h1
        | start k' o' =>
          simp only [TransportState.step] at h1
          split at h1
          · injection h1 with h1; subst h1
            simp only [updateAt] at h2
            grind
          · cases h1
        | _ k' =>
          simp only [TransportState.step] at h1
          split at h1
          · injection h1 with h1; subst h1
            simp only [updateAt] at h2
            grind
          · cases h1
      · exact .inr ⟨o, by simp [h2]⟩

/-- Boolean version of `NoReuse` for schedules in which the calls are numbered below `n`. -/
def noReuseUpTo (n : Nat) (b : Bool) (acts : List TransportAct) : Bool :=
  (acts.all fun a => match a with
    | .start k _ => decide (k < n)
    | _ => true) &&
  acts.inits.all fun pre =>
    match TransportState.new.run b pre with
    | none => true
    | some s => (List.range n).all fun k => (List.range n).all fun k' =>
      match s.trips k, s.trips k' with
      | some t, some t' => decide (t.phase = .done ∨ t'.phase = .done ∨ t.original ≠ t'.original ∨ k = k')
      | _, _ => true

theorem noReuse_of {n : Nat} {b : Bool} {acts : List TransportAct} (h : noReuseUpTo n b acts = true) : NoReuse b acts := by
  simp only [noReuseUpTo, Bool.and_eq_true, List.all_eq_true] at h
  obtain ⟨h1, h2⟩ := h
  intro pre hp s hs k k' t t' hk hk' hr hr' ho
  have lt : ∀ k t, s.trips k = some t → k < n := by
    intro k t hk
    rcases trips_started hs (k := k) (by rw [hk]; simp) with h | ⟨o, h⟩
    · exact absurd rfl h
    · simpa using h1 _ (hp.subset h)
  have := h2 pre ((List.mem_inits pre acts).2 hp)
  rw [hs] at this
  simp only [List.all_eq_true] at this
  have := this k (List.mem_range.2 (lt k t hk)) k' (List.mem_range.2 (lt k' t' hk'))
  rw [hk, hk'] at this
  simp only [decide_eq_true_eq] at this
  rcases this with h | h | h | h
  · exact absurd h hr
  · exact absurd h hr'
  · exact absurd ho h
  · exact h

theorem forwarded_mem {j c : Nat} {l : List InnerCall} : c ∈ forwarded j l ↔ .cancel j c ∈ l := by
  induction l with
  | nil => simp [forwarded]
  | cons e l ih =>
    rw [show e :: l = [e] ++ l from rfl, forwarded_append, List.mem_append, ih, List.mem_append]
    cases e with
    | roundTrip k d => simp [forwarded_roundTrip]
    | cancel k d =>
      rw [forwarded_cancel]
      by_cases h : k = j
      · subst h; simp
      · have h' : ¬ j = k := fun e => h e.symm
        simp [h, h']

theorem AMap.eq_nil_of_get {K V : Type} [DecidableEq K] {m : AMap K V} (h : ∀ k, m.get k = none) : m = [] := by
  cases m with
  | nil => rfl
  | cons p m =>
    have := h p.1
    simp [AMap.get] at this

end Appdash
