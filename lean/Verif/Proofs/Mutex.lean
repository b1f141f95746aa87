import Verif.Model.Mutex

/-! # Operations under one mutex are serialised -/

namespace Appdash.Mutex

variable {S Op R : Type} {M : Machine S Op R}

theorem Runs.inv {l : M.L} {s s' : S} {r : R} (h : Runs M l s s' r) :
    M.step l s s' (.inr r) ∨ ∃ l' s1, M.step l s s1 (.inl l') ∧ Runs M l' s1 s' r := by
  cases h with
  | done h => exact .inl h
  | more h h2 => exact .inr ⟨_, _, h, h2⟩

/-- The part of a body executed so far. -/
inductive Partial (M : Machine S Op R) (op : Op) (s : S) : M.L → S → Prop
  | start : Partial M op s (M.start op) s
  | step {l l' : M.L} {s' s'' : S} : Partial M op s l s' → M.step l s' s'' (.inl l') → Partial M op s l' s''

theorem Partial.finish {op : Op} {s s' : S} {l : M.L} (h : Partial M op s l s') :
    ∀ {s'' r}, Runs M l s' s'' r → Runs M (M.start op) s s'' r := by
  induction h with
  | start => intro _ _ h; exact h
  | step _ hs ih => intro _ _ h; exact ih (.more hs h)

/-- The invariant: mutual exclusion, and the shared state is that of a sequential execution plus the part of the
lock holder's body executed so far. -/
def Inv (M : Machine S Op R) (s : S) (c : Config M) : Prop :=
  (∀ i op l, c.threads i = .inside op l → c.holder = some i) ∧
  ∃ mid, Sequential (fun op => Runs M (M.start op)) s c.log mid ∧
    match c.holder with
    | none => c.shared = mid
    | some i => ∃ op l, c.threads i = .inside op l ∧ Partial M op mid l c.shared

theorem inv_reachable {s : S} {c : Config M} (h : Reachable M s c) : Inv M s c := by
  induction h with
  | init => exact ⟨(by intro i op l h; cases h), s, .nil s, rfl⟩
  | @step c _ _ hstep ih =>
    obtain ⟨hex, mid, hseq, hh⟩ := ih
    cases hstep with
    | call i op hi =>
      refine ⟨?_, mid, hseq, ?_⟩
      · intro j op' l hj
        simp only [setThread] at hj
        split at hj
        · cases hj
        · exact hex j op' l hj
      · simp only
        cases hho : c.holder with
        | none => rw [hho] at hh; exact hh
        | some k =>
          rw [hho] at hh
          obtain ⟨op', l, h1, h2⟩ := hh
          refine ⟨op', l, ?_, h2⟩
          have : k ≠ i := by rintro rfl; rw [hi] at h1; cases h1
          simp [setThread, this, h1]
    | lock i op hi hfree =>
      rw [hfree] at hh
      refine ⟨?_, mid, hseq, op, M.start op, by simp [setThread], by
        have : c.shared = mid := hh
        rw [this]; exact .start⟩
      intro j op' l hj
      simp only [setThread] at hj
      split at hj
      · rename_i e; rw [e]
      · have := hex j op' l hj
        rw [hfree] at this; cases this
    | micro i op l l' s' hi hm =>
      have hho := hex i op l hi
      rw [hho] at hh
      obtain ⟨op', l'', h1, h2⟩ := hh
      rw [hi] at h1
      cases h1
      refine ⟨?_, mid, hseq, ?_⟩
      · intro j op' l2 hj
        simp only [setThread] at hj
        split at hj
        · rename_i e; rw [e]; exact hho
        · exact hex j op' l2 hj
      · simp only [hho]
        exact ⟨op, l', by simp [setThread], h2.step hm⟩
    | finish i op l s' r hi hm =>
      have hho := hex i op l hi
      rw [hho] at hh
      obtain ⟨op', l'', h1, h2⟩ := hh
      rw [hi] at h1
      cases h1
      refine ⟨?_, s', .snoc hseq (h2.finish (.done hm)), rfl⟩
      intro j op' l2 hj
      simp only [setThread] at hj
      split at hj
      · cases hj
      · rename_i e
        have := hex j op' l2 hj
        rw [hho] at this
        injection this with this
        exact absurd this.symm e

theorem Sequential.imp {e e' : Op → S → S → R → Prop} (h : ∀ op s s' r, e op s s' r → e' op s s' r) {s s' : S}
    {log : List (Nat × Op × R)} (hs : Sequential e s log s') : Sequential e' s log s' := by
  induction hs with
  | nil => exact .nil _
  | snoc _ h1 ih => exact .snoc ih (h _ _ _ _ h1)

/-- Whenever the lock is free, the state and all returned results are those of performing the finished operations
one at a time, in the order in which they held the lock. -/
theorem serialised {exec : Op → S → S → R → Prop} (hM : ∀ op s s' r, Runs M (M.start op) s s' r → exec op s s' r)
    {s : S} {c : Config M} (h : Reachable M s c) :
    (c.holder = none → Sequential exec s c.log c.shared) ∧ ∃ mid, Sequential exec s c.log mid := by
  obtain ⟨-, mid, hseq, hh⟩ := inv_reachable h
  refine ⟨?_, mid, hseq.imp hM⟩
  intro hn
  rw [hn] at hh
  have : c.shared = mid := hh
  rw [this]
  exact hseq.imp hM

/-- At most one goroutine is inside a body. -/
theorem exclusion {s : S} {c : Config M} (h : Reachable M s c) {i j : Nat} {op op' : Op} {l l' : M.L}
    (hi : c.threads i = .inside op l) (hj : c.threads j = .inside op' l') : i = j := by
  obtain ⟨hex, -⟩ := inv_reachable h
  have h1 := hex i op l hi
  have h2 := hex j op' l' hj
  rw [h1] at h2
  injection h2

/-- A predicate on program points and shared states that holds at the start of every body and is preserved by every step
holds wherever a goroutine is. -/
theorem inside_inv (P : M.L → S → Prop) (h0 : ∀ op s, P (M.start op) s)
    (hs : ∀ l l' s s', P l s → M.step l s s' (.inl l') → P l' s') {s : S} {c : Config M} (h : Reachable M s c)
    {i : Nat} {op : Op} {l : M.L} (hi : c.threads i = .inside op l) : P l c.shared := by
  obtain ⟨hex, mid, -, hh⟩ := inv_reachable h
  have hho := hex i op l hi
  rw [hho] at hh
  obtain ⟨op', l', h1, h2⟩ := hh
  rw [hi] at h1
  cases h1
  clear hi hho hex
  generalize c.shared = sh at h2
  induction h2 with
  | start => exact h0 _ _
  | step _ hstep ih => exact hs _ _ _ _ ih hstep

/-- Invariants over the shared state and the log, with conditions at program points inside a body. -/
theorem reachable_inv (I : S → List (Nat × Op × R) → Prop) (P : Op → M.L → S → List (Nat × Op × R) → Prop) {s : S}
    (h0 : I s []) (hstart : ∀ op s log, I s log → P op (M.start op) s log)
    (hmicro : ∀ op l l' s s' log, P op l s log → M.step l s s' (.inl l') → P op l' s' log)
    (hfinish : ∀ op l s s' r log i, P op l s log → M.step l s s' (.inr r) → I s' (log ++ [(i, op, r)]))
    {c : Config M} (h : Reachable M s c) :
    (c.holder = none → I c.shared c.log) ∧ ∀ i op l, c.threads i = .inside op l → P op l c.shared c.log := by
  induction h with
  | init => exact ⟨fun _ => h0, by intro i op l h; cases h⟩
  | @step c _ hr hstep ih =>
    obtain ⟨ih1, ih2⟩ := ih
    obtain ⟨hex, -⟩ := inv_reachable hr
    cases hstep with
    | call i op hi =>
      refine ⟨ih1, ?_⟩
      intro j op' l hj
      simp only [setThread] at hj
      split at hj
      · cases hj
      · exact ih2 j op' l hj
    | lock i op hi hfree =>
      refine ⟨by simp, ?_⟩
      intro j op' l hj
      simp only [setThread] at hj
      split at hj
      · cases hj; exact hstart _ _ _ (ih1 hfree)
      · have := hex j op' l hj
        rw [hfree] at this; cases this
    | micro i op l l' s' hi hm =>
      have hho := hex i op l hi
      refine ⟨by simp [hho], ?_⟩
      intro j op' l2 hj
      simp only [setThread] at hj
      split at hj
      · cases hj; exact hmicro _ _ _ _ _ _ (ih2 i op l hi) hm
      · rename_i e
        have := hex j op' l2 hj
        rw [hho] at this
        injection this with this
        exact absurd this.symm e
    | finish i op l s' r hi hm =>
      have hho := hex i op l hi
      refine ⟨fun _ => hfinish _ _ _ _ _ _ _ (ih2 i op l hi) hm, ?_⟩
      intro j op' l2 hj
      simp only [setThread] at hj
      split at hj
      · cases hj
      · rename_i e
        have := hex j op' l2 hj
        rw [hho] at this
        injection this with this
        exact absurd this.symm e

end Appdash.Mutex
