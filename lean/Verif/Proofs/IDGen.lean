import Verif.Spec.IDGen
import Verif.Proofs.Bits
import Verif.Proofs.Mutex
import Mathlib.Data.List.Induction
import Mathlib.Tactic.NormNum

/-! # Lemmas on the ID generator -/

namespace Appdash

@[simp] theorem length_incLoop (k : Nat) (c : Bytes) : (incLoop k c).length = c.length := by
  induction k generalizing c with
  | zero => rfl
  | succ k ih =>
    simp only [incLoop]
    split
    · simp
    · rw [ih]; simp

theorem incLoop_append (k : Nat) (p q : Bytes) (h : k ≤ p.length) : incLoop k (p ++ q) = incLoop k p ++ q := by
  induction k generalizing p with
  | zero => rfl
  | succ k ih =>
    have hk : k < p.length := h
    simp only [incLoop]
    have e : ∀ q' : Bytes, ∀ p' : Bytes, k < p'.length → (p' ++ q').getD k 0 = p'.getD k 0 := by
      intro q' p' h'
      simp [List.getD_eq_getElem?_getD, List.getElem?_append_left h']
    rw [e q p hk, List.set_append_left _ _ hk, e q _ (by simpa using hk)]
    split
    · rfl
    · rw [ih _ (by simp; omega)]

theorem beNat_incLoop (c : Bytes) : beNat (incLoop c.length c) = (beNat c + 1) % 256 ^ c.length := by
  induction c using List.reverseRecOn with
  | nil => simp [incLoop, beNat, leNat]
  | append_singleton p x ih =>
    have hx := x.toNat_lt
    have hp := beNat_lt p
    have hset : (p ++ [x]).set p.length ((p ++ [x]).getD p.length 0 + 1) = p ++ [x + 1] := by simp
    have hget : (p ++ [x + 1]).getD p.length 0 = x + 1 := by simp
    simp only [List.length_append, List.length_singleton, incLoop, hset, hget]
    rw [beNat_append_singleton, Nat.pow_succ]
    split
    · rename_i hne
      have h1 : (x + 1).toNat = x.toNat + 1 := by
        rw [UInt8.toNat_add]
        have : x.toNat ≠ 255 := by
          intro e
          apply hne
          apply UInt8.toNat_inj.1
          simp [UInt8.toNat_add, e]
        simp; omega
      rw [beNat_append_singleton, h1, Nat.mod_eq_of_lt]
      · omega
      · have : x.toNat ≠ 255 := by
          intro e
          have := (x + 1).toNat_lt
          rw [h1, e] at this
          omega
        omega
    · rename_i he
      have he : x + 1 = 0 := by simpa using he
      have h1 : x.toNat = 255 := by
        have := congrArg UInt8.toNat he
        rw [UInt8.toNat_add] at this
        simp at this; omega
      rw [he, incLoop_append _ _ _ (Nat.le_refl _), beNat_append_singleton, ih, h1]
      have : 256 * beNat p + 255 + 1 = 256 * (beNat p + 1) := by omega
      rw [this, Nat.mul_comm (256 ^ p.length) 256, Nat.mul_mod_mul_left]
      simp

/-- The state after `2 * k` calls, and in between two halves of a block. -/
theorem gen_two (E : Bytes → Bytes) (s : GenState) (hn : s.n = 16) :
    generateID E s = (loadID (E s.ctr) 0, { ctr := incLoop 16 s.ctr, n := 8, b := E s.ctr }) ∧
    generateID E { ctr := incLoop 16 s.ctr, n := 8, b := E s.ctr } =
      (loadID (E s.ctr) 8, { ctr := incLoop 16 s.ctr, n := 16, b := E s.ctr }) := by
  constructor <;> simp [generateID, hn]

/-- Running the body of `generateID` from each program point. -/
theorem gen_runs_bump {E : Bytes → Bytes} {id r : ID} {s s' : GenState}
    (h : Mutex.Runs (genMachine E) (.bump id) s s' r) : r = id ∧ s' = { s with n := s.n + 8 } := by
  rcases h.inv with h | ⟨l', s1, h, h2⟩
  · replace h : GenStep E _ _ _ _ := h
    cases h; exact ⟨rfl, rfl⟩
  · replace h : GenStep E _ _ _ _ := h
    cases h

theorem gen_runs_load {E : Bytes → Bytes} {r : ID} {s s' : GenState}
    (h : Mutex.Runs (genMachine E) .load s s' r) : r = loadID s.b s.n ∧ s' = { s with n := s.n + 8 } := by
  rcases h.inv with h | ⟨l', s1, h, h2⟩
  · replace h : GenStep E _ _ _ _ := h
    cases h
  · replace h : GenStep E _ _ _ _ := h
    cases h; exact gen_runs_bump h2

theorem gen_runs_reset {E : Bytes → Bytes} {r : ID} {s s' : GenState}
    (h : Mutex.Runs (genMachine E) .reset s s' r) : r = loadID s.b 0 ∧ s' = { s with n := 8 } := by
  rcases h.inv with h | ⟨l', s1, h, h2⟩
  · replace h : GenStep E _ _ _ _ := h
    cases h
  · replace h : GenStep E _ _ _ _ := h
    cases h; exact gen_runs_load h2

theorem gen_runs_inc {E : Bytes → Bytes} {r : ID} (k : Nat) {s s' : GenState} (hk : k ≤ s.ctr.length)
    (h : Mutex.Runs (genMachine E) (.inc k) s s' r) :
    r = loadID s.b 0 ∧ s' = { s with ctr := incLoop k s.ctr, n := 8 } := by
  induction k generalizing s with
  | zero =>
    rcases h.inv with h | ⟨l', s1, h, h2⟩
    · replace h : GenStep E _ _ _ _ := h
      cases h
    · replace h : GenStep E _ _ _ _ := h
      cases h; exact gen_runs_reset h2
  | succ k ih =>
    have hget : (s.ctr.set k (s.ctr.getD k 0 + 1)).getD k 0 = s.ctr.getD k 0 + 1 := by
      rw [List.getD_eq_getElem?_getD, List.getElem?_set_self (by omega)]; rfl
    rcases h.inv with h | ⟨l', s1, h, h2⟩
    · replace h : GenStep E _ _ _ _ := h
      cases h
    · replace h : GenStep E _ _ _ _ := h
      cases h with
      | incBreak _ _ hb =>
        have := gen_runs_reset h2
        simp only [incLoop, hget, hb, ne_eq, not_false_eq_true, if_true]
        exact this
      | incNext _ _ hb =>
        have := ih (by simp; omega) h2
        have hif : incLoop (k + 1) s.ctr = incLoop k (s.ctr.set k (s.ctr.getD k 0 + 1)) := by
          rw [incLoop]
          rw [hget, if_neg (fun h => h hb)]
        rw [hif]
        exact this

theorem gen_runs {E : Bytes → Bytes} {r : ID} {s s' : GenState} (hs : s.ctr.length = 16)
    (h : Mutex.Runs (genMachine E) .check s s' r) : generateID E s = (r, s') := by
  rcases h.inv with h | ⟨l', s1, h, h2⟩
  · replace h : GenStep E _ _ _ _ := h
    cases h
  · replace h : GenStep E _ _ _ _ := h
    cases h with
    | checkYes _ hn =>
      rcases h2.inv with h | ⟨l', s1, h, h3⟩
      · replace h : GenStep E _ _ _ _ := h
        cases h
      · replace h : GenStep E _ _ _ _ := h
        cases h
        obtain ⟨rfl, rfl⟩ := gen_runs_inc 16 (by simpa using Nat.le_of_eq hs.symm) h3
        rw [(gen_two E s hn).1]
    | checkNo _ hn =>
      obtain ⟨rfl, rfl⟩ := gen_runs_load h2
      simp [generateID, hn]

/-- The state after `k` calls. -/
structure GenInv (E : Bytes → Bytes) (c0 : Bytes) (k : Nat) (s : GenState) : Prop where
  ctr : s.ctr.length = 16 ∧ beNat s.ctr = (beNat c0 + (k + 1) / 2) % 2 ^ 128
  even : k % 2 = 0 → s.n = 16
  odd : k % 2 = 1 → s.n = 8 ∧ ∃ c, c.length = 16 ∧ beNat c = (beNat c0 + k / 2) % 2 ^ 128 ∧ s.b = E c

theorem GenInv.init (E : Bytes → Bytes) {c0 : Bytes} (h : c0.length = 16) : GenInv E c0 0 (GenState.init c0) := by
  refine ⟨⟨h, ?_⟩, fun _ => rfl, fun h => by omega⟩
  have := beNat_lt c0
  rw [h] at this
  have e : (256 : Nat) ^ 16 = 2 ^ 128 := by norm_num
  rw [e] at this
  show beNat c0 = (beNat c0 + 0) % 2 ^ 128
  rw [Nat.add_zero, Nat.mod_eq_of_lt this]

theorem GenInv.step {E : Bytes → Bytes} {c0 : Bytes} {k : Nat} {s s' : GenState} {r : ID} (h : GenInv E c0 k s)
    (hg : generateID E s = (r, s')) : GenInv E c0 (k + 1) s' ∧
      ∃ c, c.length = 16 ∧ beNat c = (beNat c0 + k / 2) % 2 ^ 128 ∧ r = loadID (E c) (8 * (k % 2)) := by
  obtain ⟨⟨hl, hc⟩, he, ho⟩ := h
  rcases Nat.mod_two_eq_zero_or_one k with hk | hk
  · have hn := he hk
    rw [(gen_two E s hn).1] at hg
    obtain ⟨rfl, rfl⟩ := Prod.mk.inj hg
    have hk2 : (k + 1) / 2 = k / 2 := by omega
    rw [hk2] at hc
    refine ⟨⟨⟨by simpa using hl, ?_⟩, fun h => by omega, fun _ => ⟨rfl, s.ctr, hl, ?_, rfl⟩⟩, s.ctr, hl, hc, by simp [hk]⟩
    · have h1 := beNat_incLoop s.ctr
      rw [hl] at h1
      have e : (256 : Nat) ^ 16 = 2 ^ 128 := by norm_num
      rw [e, hc] at h1
      have hk3 : (k + 1 + 1) / 2 = k / 2 + 1 := by omega
      rw [hk3]
      show beNat (incLoop 16 s.ctr) = _
      rw [h1, Nat.mod_add_mod, Nat.add_assoc]
    · rw [hk2]; exact hc
  · obtain ⟨hn, c, hcl, hcv, hb⟩ := ho hk
    have hg' : generateID E s = (loadID (E c) 8, { s with n := 16 }) := by
      simp [generateID, hn, hb]
    rw [hg'] at hg
    obtain ⟨rfl, rfl⟩ := Prod.mk.inj hg
    have hk2 : (k + 1 + 1) / 2 = (k + 1) / 2 := by omega
    exact ⟨⟨⟨hl, by rw [hk2]; exact hc⟩, fun _ => rfl, fun h => by omega⟩, c, hcl, hcv, by simp [hk]⟩

/-- Results of calls performed one at a time. -/
theorem gen_sequential {E : Bytes → Bytes} {c0 : Bytes} (h0 : c0.length = 16) {log : List (Nat × Unit × ID)}
    {s s' : GenState} (h : Mutex.Sequential (fun _ s s' r => s.ctr.length = 16 → generateID E s = (r, s')) s log s')
    (hs : s = GenState.init c0) :
    GenInv E c0 log.length s' ∧ ∀ i r, (log.map fun e => e.2.2)[i]? = some r →
      ∃ c, c.length = 16 ∧ beNat c = (beNat c0 + i / 2) % 2 ^ 128 ∧ r = loadID (E c) (8 * (i % 2)) := by
  induction h with
  | nil => subst hs; exact ⟨GenInv.init E h0, by simp⟩
  | @snoc _ _ log _ _ _ _ hx ih =>
    obtain ⟨h1, h2⟩ := ih
    obtain ⟨h3, h4⟩ := h1.step (hx h1.ctr.1)
    refine ⟨by simpa using h3, ?_⟩
    intro i r hi
    rw [List.map_append, List.getElem?_append] at hi
    split at hi
    · exact h2 i r hi
    · rename_i hlt
      simp only [List.length_map, Nat.not_lt] at hlt
      have : i = _ := Nat.le_antisymm (by
        rcases Nat.lt_or_ge 0 (i - List.length (List.map (fun e : Nat × Unit × ID => e.2.2) log)) with hh | hh
        · rw [List.getElem?_eq_none (by simp at hh ⊢; omega)] at hi
          cases hi
        · exact Nat.sub_eq_zero_iff_le.1 (Nat.le_zero.1 (by simpa using hh))) hlt
      subst this
      simp only [List.length_map, Nat.sub_self, List.map_cons, List.map_nil, List.getElem?_cons_zero,
        Option.some.injEq] at hi
      subst hi
      exact h4

open Spec in
/-- The state after any sequence of derivations. -/
theorem derive_inv (src : Nat → ID) (ops : List DeriveOp) (hw : WellFormed ops) :
    let st := ops.foldl (deriveStep src) (0, [])
    st.2.length = ops.length ∧
    (∀ i : Nat, ops[i]? = some DeriveOp.root → ∃ a < st.1, a + 1 < st.1 ∧ st.2[i]? = some (⟨src a, src (a + 1), 0⟩ : SpanID)) ∧
    (∀ i k : Nat, ops[i]? = some (DeriveOp.child k) →
      ∃ a < st.1, ∃ p, st.2[k]? = some p ∧ st.2[i]? = some (⟨p.trace, src a, p.span⟩ : SpanID)) ∧
    ∃ a : Nat → Nat, (∀ i, i < ops.length → a i < st.1 ∧ ∃ t q, st.2[i]? = some (⟨t, src (a i), q⟩ : SpanID)) ∧
      ∀ i j, i < j → j < ops.length → a i < a j := by
  induction ops using List.reverseRecOn with
  | nil => exact ⟨rfl, by simp, by simp, id, by simp, by simp⟩
  | append_singleton ops op ih =>
    have hw' : WellFormed ops := by
      intro i k h
      apply hw i k
      have hlt : i < ops.length := (List.getElem?_eq_some_iff.1 h).1
      rw [List.getElem?_append_left hlt]; exact h
    obtain ⟨hlen, hroot, hchild, a, ha, hmono⟩ := ih hw'
    simp only [List.foldl_append, List.foldl_cons, List.foldl_nil]
    generalize hst : List.foldl (deriveStep src) (0, []) ops = st at hlen hroot hchild ha
    have step : ∃ d n a', deriveStep src st op = (n, st.2 ++ [d]) ∧ st.1 ≤ a' ∧ a' < n ∧ d.span = src a' ∧
        (op = .root → d = ⟨src st.1, src (st.1 + 1), 0⟩ ∧ st.1 + 1 < n) ∧
        (∀ k, op = .child k → ∃ p, st.2[k]? = some p ∧ d = ⟨p.trace, src st.1, p.span⟩) := by
      cases op with
      | root => exact ⟨_, _, st.1 + 1, rfl, by omega, by simp, rfl, fun _ => ⟨rfl, by simp⟩, by simp⟩
      | child k =>
        have hk : k < st.2.length := by
          rw [hlen]
          exact hw ops.length k (by simp)
        have hg : st.2[k]? = some st.2[k] := List.getElem?_eq_getElem hk
        refine ⟨newSpanID st.2[k] (src st.1), st.1 + 1, st.1, ?_, by omega, by omega, rfl, by simp, ?_⟩
        · simp only [deriveStep, hg]
        · intro k' e
          cases e
          exact ⟨_, hg, rfl⟩
    obtain ⟨d, n, a', hstep, hle, hlt, hspan, hr, hc⟩ := step
    rw [hstep]
    have old : ∀ (i : Nat) (x : SpanID), st.2[i]? = some x → (st.2 ++ [d])[i]? = some x := by
      intro i x hx
      rw [List.getElem?_append_left (List.getElem?_eq_some_iff.1 hx).1]; exact hx
    have new : (st.2 ++ [d])[ops.length]? = some d := by rw [← hlen]; simp
    have split : ∀ (i : Nat) (x : DeriveOp), (ops ++ [op])[i]? = some x → ops[i]? = some x ∨ (i = ops.length ∧ x = op) := by
      intro i x hx
      rw [List.getElem?_append] at hx
      split at hx
      · exact .inl hx
      · rename_i h
        rcases Nat.lt_or_ge ops.length i with h1 | h1
        · rw [List.getElem?_eq_none (by simp; omega)] at hx; cases hx
        · have : i = ops.length := by omega
          subst this
          simp at hx
          exact .inr ⟨rfl, hx.symm⟩
    have hn : st.1 < n := by omega
    refine ⟨by simp [hlen], ?_, ?_, fun i => if i = ops.length then a' else a i, ?_, ?_⟩
    · intro i hi
      rcases split i _ hi with h | ⟨rfl, rfl⟩
      · obtain ⟨b, hb, hb', hx⟩ := hroot i h
        exact ⟨b, by simp; omega, by simp; omega, old _ _ hx⟩
      · obtain ⟨rfl, h2⟩ := hr rfl
        exact ⟨st.1, hn, h2, new⟩
    · intro i k hi
      rcases split i _ hi with h | ⟨rfl, rfl⟩
      · obtain ⟨b, hb, p, hp, hx⟩ := hchild i k h
        exact ⟨b, by simp; omega, p, old _ _ hp, old _ _ hx⟩
      · obtain ⟨p, hp, rfl⟩ := hc k rfl
        exact ⟨st.1, hn, p, old _ _ hp, new⟩
    · intro i hi
      simp only [List.length_append, List.length_singleton] at hi
      simp only
      by_cases e : i = ops.length
      · subst e
        simp only [if_true]
        refine ⟨hlt, d.trace, d.parent, ?_⟩
        rw [← hspan]; exact new
      · have hi' : i < ops.length := by omega
        obtain ⟨h1, t, q, h2⟩ := ha i hi'
        simp only [e, if_false]
        exact ⟨by omega, t, q, old _ _ h2⟩
    · intro i j hij hj
      simp only [List.length_append, List.length_singleton] at hj
      have hi : ¬ i = ops.length := by omega
      simp only [hi, if_false]
      split
      · have := (ha i (by omega)).1; omega
      · exact hmono i j hij (by omega)

end Appdash
