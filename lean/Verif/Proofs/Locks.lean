import Verif.Spec.Locks

/-! # Mutexes are locked in descending order (C164) -/

namespace Appdash.Locks
open Spec

/-- A goroutine that holds `H` (the last one first) locks only smaller mutexes than it holds, unlocks in the reverse order, and ends with
none. -/
inductive Good : List Nat → List Act → Prop
  | nil : Good [] []
  | lock {H : List Nat} {m : Nat} {p : List Act} : (∀ h ∈ H, m < h) → Good (m :: H) p → Good H (.base (.lock m) :: p)
  | unlock {H : List Nat} {m : Nat} {p : List Act} : Good H p → Good (m :: H) (.base (.unlock m) :: p)
  | work {H : List Nat} {p : List Act} : Good H p → Good H (.base .work :: p)
  | spawn {H : List Nat} {q : List Base} {p : List Act} : Good [] (plain q) → Good H p → Good H (.spawn q :: p)

/-- A part of a program that locks only mutexes below `b` and leaves those that are held as they are. -/
def Block (b : Nat) (p : List Act) : Prop := ∀ H r, (∀ h ∈ H, b ≤ h) → Good H r → Good H (p ++ r)

theorem Block.nil (b : Nat) : Block b [] := fun _ _ _ h => h

theorem Block.append {b : Nat} {p q : List Act} (hp : Block b p) (hq : Block b q) : Block b (p ++ q) := fun H r hH hr => by
  rw [List.append_assoc]
  exact hp H _ hH (hq H r hH hr)

theorem Block.flatten {b : Nat} : ∀ {ps : List (List Act)}, (∀ p ∈ ps, Block b p) → Block b ps.flatten
  | [], _ => Block.nil b
  | p :: ps, h => by
    rw [List.flatten_cons]
    exact (h p (by simp)).append (Block.flatten fun q hq => h q (by simp [hq]))

theorem Block.mono {a b : Nat} {p : List Act} (hab : a ≤ b) (h : Block a p) : Block b p :=
  fun H r hH hr => h H r (fun x hx => Nat.le_trans hab (hH x hx)) hr

theorem Block.good {b : Nat} {p : List Act} (h : Block b p) : Good [] p := by
  have := h [] [] (by simp) .nil
  rwa [List.append_nil] at this

theorem Block.work (b : Nat) : Block b [.base .work] := fun _ _ _ hr => .work hr

theorem Block.spawn {b : Nat} {q : List Base} (hq : Good [] (plain q)) : Block b [.spawn q] := fun _ _ _ hr => .spawn hq hr

/-- A part of a program between `Lock` and `Unlock`. -/
theorem Block.locked {b m : Nat} {p : List Act} (hm : m < b) (hp : Block m p) :
    Block b (.base (.lock m) :: p ++ [.base (.unlock m)]) := fun H r hH hr => by
  rw [List.cons_append, List.cons_append, List.append_assoc]
  refine .lock (fun h hh => Nat.lt_of_lt_of_le hm (hH h hh)) (hp (m :: H) _ ?_ (.unlock hr))
  intro h hh
  rcases List.mem_cons.1 hh with rfl | hh
  · exact Nat.le_refl _
  · exact Nat.le_of_lt (Nat.lt_of_lt_of_le hm (hH h hh))

theorem Block.under {b m : Nat} (hm : m < b) : Block b (plain (under m)) := Block.locked hm (Block.work m)

theorem plain_append (p q : List Base) : plain (p ++ q) = plain p ++ plain q := List.map_append

theorem Block.logging {b n : Nat} (hb : logMu n < b) : ∀ bs, Block b (plain (logging n bs))
  | [] => Block.nil b
  | x :: bs => by
    rw [Locks.logging, List.map_cons, List.flatten_cons, plain_append]
    refine Block.append ?_ (Block.logging hb bs)
    cases x
    · exact Block.work b
    · exact Block.under hb

theorem Block.ite {b : Nat} {p : List Act} {x : Bool} (h : Block b p) : Block b (if x then p else []) := by
  cases x
  · exact Block.nil b
  · exact h

theorem deletes_block {sys : Nat → Kind} (ha : NoCycles sys) {n : Nat} {p : List Base} (h : Deletes sys n p) : Block (2 * n + 2) (plain p) := by
  induction h with
  | memory _ => exact Block.under (by simp [mu])
  | @limit n s _ hk _ ih =>
    have := ha n s (by simp [hk, uses])
    exact ih.mono (by omega)
  | @recent n s _ hk _ ih =>
    have := ha n s (by simp [hk, uses])
    exact ih.mono (by omega)

theorem does_block {sys : Nat → Kind} (ha : NoCycles sys) {n : Nat} {c : Call} {p : List Act} (h : Does sys n c p) : Block (2 * n + 2) p := by
  induction h with
  | memory _ _ => exact Block.under (by simp [mu])
  | delete h => exact deletes_block ha h
  | limitZero _ => exact Block.nil _
  | @limitKnown n s _ hk _ ih =>
    have := ha n s (by simp [hk, uses])
    exact Block.locked (by simp [mu]) (ih.mono (by simp only [mu]; omega))
  | @limitEvict n s _ _ hk hd _ ih =>
    have := ha n s (by simp [hk, uses])
    rw [List.cons_append]
    exact Block.locked (by simp [mu]) (((deletes_block ha hd).mono (by simp only [mu]; omega)).append (ih.mono (by simp only [mu]; omega)))
  | @limitFail n s _ hk hd =>
    have := ha n s (by simp [hk, uses])
    exact Block.locked (by simp [mu]) ((deletes_block ha hd).mono (by simp only [mu]; omega))
  | limitPanic _ => exact Block.under (by simp [mu])
  | @limitQuery n s _ hk _ ih =>
    have := ha n s (by simp [hk, uses])
    exact ih.mono (by omega)
  | @recent n s _ hk _ ih =>
    have := ha n s (by simp [hk, uses])
    exact (Block.under (by simp [mu])).append (ih.mono (by omega))
  | @recentEvict n s d _ hk hd _ ih =>
    have := ha n s (by simp [hk, uses])
    exact (Block.locked (p := [.spawn d]) (by simp [mu]) (Block.spawn (deletes_block ha hd).good)).append (ih.mono (by omega))
  | @recentQuery n s _ hk _ ih =>
    have := ha n s (by simp [hk, uses])
    exact ih.mono (by omega)
  | @multi n _ stores ps hk _ hp _ ih =>
    refine Block.flatten fun q hq => ?_
    obtain ⟨x, hx, rfl⟩ := List.mem_map.1 hq
    have : x.1 ∈ stores := hp.subset (List.mem_map.2 ⟨x, hx, rfl⟩)
    have := ha n x.1 (by simpa [hk, uses] using this)
    exact (ih x hx).mono (by omega)
  | chunked _ _ => exact Block.under (by simp [mu])
  | @flush n s _ _ hk _ ih =>
    have := ha n s (by simp [hk, uses])
    exact ((Block.under (by simp [mu])).append (Block.flatten fun p hp => (ih p hp).mono (by omega))).append (Block.ite (Block.under (by simp [mu])))
  | tick _ _ ih => exact ih.append (Block.ite (Block.under (by simp [mu])))
  | @remote n _ bs _ _ =>
    have e : plain (.lock (mu n) :: logging n bs ++ [.unlock (mu n)]) =
        .base (.lock (mu n)) :: plain (logging n bs) ++ [.base (.unlock (mu n))] := by
      rw [plain_append]; rfl
    rw [e]
    exact Block.locked (by simp [mu]) (Block.logging (by simp [mu, logMu]) _)
  | @record n s _ _ hk _ ih =>
    have := ha n s (by simp [hk, uses])
    exact (Block.flatten fun p hp => (ih p hp).mono (by omega)).append (Block.ite (Block.under (by simp [mu])))
  | errors _ => exact Block.under (by simp [mu])
  | @packet n s _ _ _ hk _ ih =>
    have := ha n s (by simp [hk, uses])
    exact ((Block.logging (by simp only [logMu]; omega) _).append (ih.mono (by omega))).append (Block.logging (by simp only [logMu]; omega) _)
  | noPacket _ => exact Block.logging (by simp only [logMu]; omega) _
  | use _ => exact Block.under (by simp [mu])

/-- Every goroutine keeps to the order, and the mutexes are held by those that have locked them. -/
def Inv (c : Config) : Prop :=
  ∃ held : List (List Nat), held.length = c.threads.length ∧
    (∀ (i : Nat) H p, held[i]? = some H → c.threads[i]? = some p → Good H p ∧ H.Nodup) ∧
    ∀ (m i : Nat), c.holder m = some i ↔ ∃ H, held[i]? = some H ∧ m ∈ H

theorem inv_init : Inv Config.init := ⟨[], rfl, by simp, by simp [Config.init]⟩

theorem inv_add {c : Config} (h : Inv c) {p : List Act} (hp : Good [] p) : Inv ⟨c.threads ++ [p], c.holder⟩ := by
  obtain ⟨held, h1, h2, h3⟩ := h
  refine ⟨held ++ [[]], by simp [h1], ?_, ?_⟩
  · intro i H q hH hq
    rcases Nat.lt_trichotomy i held.length with hi | hi | hi
    · rw [List.getElem?_append_left hi] at hH
      simp only at hq
      rw [List.getElem?_append_left (by omega)] at hq
      exact h2 i H q hH hq
    · subst hi
      simp only at hq
      rw [h1] at hq
      simp only [List.getElem?_append_right (Nat.le_refl _), Nat.sub_self, List.getElem?_cons_zero, Option.some.injEq] at hH hq
      subst hH hq
      exact ⟨hp, by simp⟩
    · rw [List.getElem?_eq_none (by simp; omega)] at hH
      cases hH
  · intro m i
    rw [h3]
    constructor
    · rintro ⟨H, hH, hm⟩
      exact ⟨H, by rw [List.getElem?_append_left (List.getElem?_eq_some_iff.1 hH).1]; exact hH, hm⟩
    · rintro ⟨H, hH, hm⟩
      rcases Nat.lt_trichotomy i held.length with hi | hi | hi
      · rw [List.getElem?_append_left hi] at hH
        exact ⟨H, hH, hm⟩
      · subst hi
        simp only [List.getElem?_append_right (Nat.le_refl _), Nat.sub_self, List.getElem?_cons_zero, Option.some.injEq] at hH
        subst hH
        cases hm
      · rw [List.getElem?_eq_none (by simp; omega)] at hH
        cases hH

/-- Goroutine `i` goes on with `p`, holding `H`. -/
theorem inv_set {threads : List (List Act)} {held : List (List Nat)} {i : Nat} {H : List Nat} {p : List Act} {holder : Nat → Option Nat}
    (h1 : held.length = threads.length) (hi : i < threads.length)
    (h2 : ∀ (i : Nat) H p, held[i]? = some H → threads[i]? = some p → Good H p ∧ H.Nodup) (hg : Good H p) (hn : H.Nodup)
    (h3 : ∀ (m j : Nat), holder m = some j ↔ if j = i then m ∈ H else ∃ H', held[j]? = some H' ∧ m ∈ H') : Inv ⟨threads.set i p, holder⟩ := by
  refine ⟨held.set i H, by simp [h1], ?_, ?_⟩
  · intro j H' q hH hq
    simp only at hq
    by_cases hj : i = j
    · subst hj
      rw [List.getElem?_set_self (by omega)] at hH hq
      cases hH; cases hq
      exact ⟨hg, hn⟩
    · rw [List.getElem?_set_ne hj] at hH hq
      exact h2 j H' q hH hq
  · intro m j
    rw [h3]
    by_cases hj : j = i
    · subst hj
      rw [List.getElem?_set_self (by omega)]
      simp
    · rw [List.getElem?_set_ne (fun e => hj e.symm)]
      simp [hj]

theorem inv_run {c c' : Config} (h : Inv c) (hr : Run c c') : Inv c' := by
  obtain ⟨held, h1, h2, h3⟩ := h
  cases hr with
  | @lock i m p hi hh =>
    have hlt := (List.getElem?_eq_some_iff.1 hi).1
    have hH := List.getElem?_eq_getElem (l := held) (i := i) (by omega)
    generalize held[i]'(by omega) = H at hH
    obtain ⟨hg, hn⟩ := h2 i H _ hH hi
    cases hg with
    | lock ha hg =>
      refine inv_set h1 hlt h2 hg (List.nodup_cons.2 ⟨fun hm => Nat.lt_irrefl _ (ha m hm), hn⟩) ?_
      intro k j
      unfold setHolder
      split
      · rename_i e
        subst e
        have hnone : ∀ j, ¬ ∃ H, held[j]? = some H ∧ k ∈ H := fun j hx => by
          rw [(h3 k j).2 hx] at hh
          cases hh
        by_cases hj : j = i
        · simp [hj]
        · simp only [hj, if_false, iff_false_right (hnone j)]
          simpa using fun e => hj e.symm
      · rename_i e
        rw [h3]
        by_cases hj : j = i
        · subst hj
          simp [hH, e]
        · simp [hj]
  | @unlock i m p hi =>
    have hlt := (List.getElem?_eq_some_iff.1 hi).1
    have hH := List.getElem?_eq_getElem (l := held) (i := i) (by omega)
    generalize held[i]'(by omega) = H at hH
    obtain ⟨hg, hn⟩ := h2 i H _ hH hi
    cases hg with
    | @unlock H _ _ hg =>
      have hn' := List.nodup_cons.1 hn
      refine inv_set h1 hlt h2 hg hn'.2 ?_
      intro k j
      unfold setHolder
      split
      · rename_i e
        subst e
        constructor
        · intro x; cases x
        · intro x
          exfalso
          split at x
          · exact hn'.1 x
          · rename_i hj
            have e1 := (h3 k j).2 x
            have e2 := (h3 k i).2 ⟨_, hH, by simp⟩
            rw [e1] at e2
            exact hj (Option.some.inj e2)
      · rename_i e
        rw [h3]
        by_cases hj : j = i
        · subst hj
          simp [hH, e]
        · simp [hj]
  | @work i p hi =>
    have hlt := (List.getElem?_eq_some_iff.1 hi).1
    have hH := List.getElem?_eq_getElem (l := held) (i := i) (by omega)
    generalize held[i]'(by omega) = H at hH
    obtain ⟨hg, hn⟩ := h2 i H _ hH hi
    cases hg with
    | work hg =>
      refine inv_set h1 hlt h2 hg hn ?_
      intro k j
      rw [h3]
      by_cases hj : j = i
      · subst hj
        simp [hH]
      · simp [hj]
  | @spawn i q p hi =>
    have hlt := (List.getElem?_eq_some_iff.1 hi).1
    have hH := List.getElem?_eq_getElem (l := held) (i := i) (by omega)
    generalize held[i]'(by omega) = H at hH
    obtain ⟨hg, hn⟩ := h2 i H _ hH hi
    cases hg with
    | spawn hq hg =>
      refine inv_add (c := ⟨c.threads.set i p, c.holder⟩) ?_ hq
      refine inv_set h1 hlt h2 hg hn ?_
      intro k j
      rw [h3]
      by_cases hj : j = i
      · subst hj
        simp [hH]
      · simp [hj]

theorem inv_reachable {sys : Nat → Kind} (ha : NoCycles sys) {c : Config} (h : Reachable sys c) : Inv c := by
  induction h with
  | init => exact inv_init
  | call _ hd ih => exact inv_add ih (does_block ha hd).good
  | run _ hr ih => exact inv_run ih hr

/-- A goroutine that waits for `m`, or one that it waits for, can go on. -/
theorem step_of_waiting {c : Config} (h : Inv c) (m : Nat) : ∀ {i : Nat} {p : List Act}, c.threads[i]? = some (.base (.lock m) :: p) →
    ∃ c', Run c c' := by
  obtain ⟨held, h1, h2, h3⟩ := h
  induction m using Nat.strongRecOn with
  | _ m ih =>
    intro i p hi
    cases hh : c.holder m with
    | none => exact ⟨_, .lock hi hh⟩
    | some j =>
      obtain ⟨H, hH, hm⟩ := (h3 m j).1 hh
      have hj := List.getElem?_eq_getElem (l := c.threads) (i := j) (by have := (List.getElem?_eq_some_iff.1 hH).1; omega)
      generalize c.threads[j]'_ = q at hj
      obtain ⟨hg, -⟩ := h2 j H q hH hj
      cases hg with
      | nil => cases hm
      | lock hl _ => exact ih _ (hl m hm) hj
      | unlock _ => exact ⟨_, .unlock hj⟩
      | work _ => exact ⟨_, .work hj⟩
      | spawn _ _ => exact ⟨_, .spawn hj⟩

theorem step_of_busy {c : Config} (h : Inv c) {i : Nat} {a : Act} {p : List Act} (hi : c.threads[i]? = some (a :: p)) : ∃ c', Run c c' := by
  cases a with
  | spawn q => exact ⟨_, .spawn hi⟩
  | base b =>
    cases b with
    | lock m => exact step_of_waiting h m hi
    | unlock m => exact ⟨_, .unlock hi⟩
    | work => exact ⟨_, .work hi⟩

/-- How many steps a program has left, with those of the goroutines it starts. -/
def weight : List Act → Nat
  | [] => 0
  | .base _ :: p => weight p + 1
  | .spawn q :: p => weight p + q.length + 1

theorem weight_plain : ∀ q : List Base, weight (plain q) = q.length
  | [] => rfl
  | b :: q => by
    have := weight_plain q
    simp only [plain, List.map_cons, weight] at this ⊢
    rw [this]
    rfl

/-- The steps that all goroutines have left. -/
def total (ts : List (List Act)) : Nat := (ts.map weight).sum

theorem total_set : ∀ {ts : List (List Act)} {i : Nat} {p q : List Act}, ts[i]? = some p → total (ts.set i q) + weight p = total ts + weight q
  | [], i, p, q, h => by simp at h
  | t :: ts, 0, p, q, h => by
    simp only [List.getElem?_cons_zero, Option.some.injEq] at h
    subst h
    simp only [List.set_cons_zero, total, List.map_cons, List.sum_cons]
    omega
  | t :: ts, i + 1, p, q, h => by
    have := total_set (ts := ts) (i := i) (p := p) (q := q) (by simpa using h)
    simp only [List.set_cons_succ, total, List.map_cons, List.sum_cons] at this ⊢
    omega

theorem run_total {c c' : Config} (h : Run c c') : total c'.threads + 1 = total c.threads := by
  cases h with
  | @lock i m p hi _ =>
    have := total_set (q := p) hi
    simp only [weight] at this ⊢
    omega
  | @unlock i m p hi =>
    have := total_set (q := p) hi
    simp only [weight] at this ⊢
    omega
  | @work i p hi =>
    have := total_set (q := p) hi
    simp only [weight] at this ⊢
    omega
  | @spawn i q p hi =>
    have := total_set (q := p) hi
    simp only [weight] at this
    have e : total (c.threads.set i p ++ [plain q]) = total (c.threads.set i p) + q.length := by
      simp [total, weight_plain]
    simp only [e]
    omega

end Appdash.Locks
