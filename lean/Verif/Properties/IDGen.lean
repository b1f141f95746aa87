import Verif.Spec.IDGen
import Verif.Proofs.IDGen
import Verif.Proofs.BitsSpec

/-! # Properties C06, C07: generated IDs and lineage -/

namespace Appdash

open Spec

theorem counterBlock_eq (v : Nat) : counterBlock v = (leBytes 16 v).reverse := by rw [counterBlock, leBytes_eq]

theorem lowFirstValue_reverse (c : Bytes) : lowFirstValue c.reverse = beNat c := by rw [beNat, leNat_eq]

theorem counterBlock_unique {c : Bytes} {v : Nat} (hl : c.length = 16) (hv : beNat c = v % 2 ^ 128) :
    c = counterBlock v := by
  apply beNat_inj
  · simp [counterBlock_eq, hl]
  · rw [hv]
    simp only [beNat, counterBlock_eq, List.reverse_reverse, leNat_leBytes]
    norm_num

/-- C06: whatever the number of goroutines and their interleaving (down to single statements), the `i`-th ID handed
out is the `i`-th 64-bit chunk of the key stream.  The IDs are listed in the order in which the calls held the
lock. -/
theorem generated_ids_are_keystream (E : Bytes → Bytes) (c0 : Bytes) (h0 : c0.length = 16)
    (c : Mutex.Config (genMachine E)) (hc : Mutex.Reachable (genMachine E) (GenState.init c0) c)
    (i : Nat) (id : ID) (hi : (c.log.map fun e => e.2.2)[i]? = some id) :
    id = littleEndian (keystreamChunk E c0 i) := by
  obtain ⟨-, mid, hseq⟩ := Mutex.serialised (M := genMachine E)
    (exec := fun _ s s' r => s.ctr.length = 16 → generateID E s = (r, s'))
    (fun op s s' r h hl => gen_runs hl h) hc
  obtain ⟨-, h⟩ := gen_sequential h0 hseq rfl
  obtain ⟨blk, hl, hv, rfl⟩ := h i id hi
  rw [counterBlock_unique hl hv, littleEndian, keystreamChunk, lowFirstValue_reverse, ← leNat_eq]
  rfl

/-- C06: below `2^128` blocks no counter value is used twice. -/
theorem counter_never_repeats (c0 : Bytes) (i j : Nat) (hi : i < 2 ^ 128) (hj : j < 2 ^ 128) (hij : i ≠ j) :
    counterBlock (lowFirstValue c0.reverse + i) ≠ counterBlock (lowFirstValue c0.reverse + j) := by
  rw [lowFirstValue_reverse]
  intro h
  have h1 : beNat (counterBlock (beNat c0 + i)) = (beNat c0 + i) % 2 ^ 128 := by
    simp only [beNat, counterBlock_eq, List.reverse_reverse, leNat_leBytes]; norm_num
  have h2 : beNat (counterBlock (beNat c0 + j)) = (beNat c0 + j) % 2 ^ 128 := by
    simp only [beNat, counterBlock_eq, List.reverse_reverse, leNat_leBytes]; norm_num
  rw [h, h2] at h1
  omega

/-- C06: within `2^128` blocks, two different blocks differ in at least one of their two halves, so no pair of IDs
made from one block is ever handed out again. -/
theorem id_pairs_never_repeat (E : Bytes → Bytes) (hE : BlockCipher E) (c0 : Bytes) (i j : Nat) (hi : i < 2 ^ 128)
    (hj : j < 2 ^ 128) (hij : i ≠ j) :
    (littleEndian (keystreamChunk E c0 (2 * i)), littleEndian (keystreamChunk E c0 (2 * i + 1))) ≠
    (littleEndian (keystreamChunk E c0 (2 * j)), littleEndian (keystreamChunk E c0 (2 * j + 1))) := by
  intro h
  obtain ⟨h1, h2⟩ := Prod.mk.inj h
  have hlen : ∀ v, (E (counterBlock v)).length = 16 := fun v => hE.1 _ (by simp [counterBlock_eq])
  have key : ∀ s t : Bytes, s.length = 8 → t.length = 8 → littleEndian s = littleEndian t → s = t := by
    intro s t hs ht e
    apply leNat_inj (by omega)
    have a := leNat_lt s
    have b := leNat_lt t
    rw [hs] at a
    rw [ht] at b
    have := congrArg UInt64.toNat e
    simp only [littleEndian, ← leNat_eq, UInt64.toNat_ofNat'] at this
    rw [Nat.mod_eq_of_lt (by norm_num at a ⊢; omega), Nat.mod_eq_of_lt (by norm_num at b ⊢; omega)] at this
    exact this
  have d1 : ∀ k : Nat, 2 * k / 2 = k := by omega
  have d2 : ∀ k : Nat, (2 * k + 1) / 2 = k := by omega
  have m1 : ∀ k : Nat, 2 * k % 2 = 0 := by omega
  have m2 : ∀ k : Nat, (2 * k + 1) % 2 = 1 := by omega
  have e1 := key _ _ (by simp [keystreamChunk, hlen, m1]) (by simp [keystreamChunk, hlen, m1]) h1
  have e2 := key _ _ (by simp [keystreamChunk, hlen, m2]) (by simp [keystreamChunk, hlen, m2]) h2
  simp only [keystreamChunk, d1, d2, m1, m2, Nat.mul_zero, Nat.mul_one, List.drop_zero] at e1 e2
  have t8 : ∀ v, ((E (counterBlock v)).drop 8).take 8 = (E (counterBlock v)).drop 8 := by
    intro v; apply List.take_of_length_le; simp [hlen]
  rw [t8, t8] at e2
  have : E (counterBlock (lowFirstValue c0.reverse + i)) = E (counterBlock (lowFirstValue c0.reverse + j)) := by
    rw [← List.take_append_drop 8 (E (counterBlock (lowFirstValue c0.reverse + i))), e1, e2, List.take_append_drop]
  exact counter_never_repeats c0 i j hi hj hij
    (hE.2 _ _ (by simp [counterBlock_eq]) (by simp [counterBlock_eq]) this)

/-- The identity is a block cipher in the sense of `BlockCipher`: the hypothesis of `id_pairs_never_repeat` can be met. -/
example : BlockCipher id := ⟨fun _ h => h, fun _ _ _ _ h => h⟩

/-- Two goroutines, three IDs, the counter wrapping around from all ones: the calls interleave (both are called before
either takes the lock) and the log is as the theorem says. -/
example : (littleEndian (keystreamChunk id (List.replicate 16 255) 0),
    littleEndian (keystreamChunk id (List.replicate 16 255) 1),
    littleEndian (keystreamChunk id (List.replicate 16 255) 2)) = (0xffffffffffffffff, 0xffffffffffffffff, 0) := by
  decide

/-- A concrete reachable configuration with a non-empty log. -/
example : ∃ c : Mutex.Config (genMachine id), Mutex.Reachable (genMachine id) (GenState.init (List.replicate 16 255)) c ∧
    (c.log.map fun e => (e.1, e.2.2)) = [(7, 0xffffffffffffffff)] := by
  let M := genMachine id
  have r0 := Mutex.Reachable.init (M := M) (s := GenState.init (List.replicate 16 255))
  have r1 := r0.step (.call _ 3 () rfl)
  have r2 := r1.step (.call _ 7 () rfl)
  have r3 := r2.step (.lock _ 7 () rfl rfl)
  have r4 := r3.step (.micro _ 7 () _ _ _ rfl (GenStep.checkYes _ rfl))
  have r5 := r4.step (.micro _ 7 () _ _ _ rfl (GenStep.encrypt _))
  have loop : ∀ k, k ≤ 16 → ∀ c : Mutex.Config M, Mutex.Reachable M (GenState.init (List.replicate 16 255)) c →
      c.threads 7 = .inside () (GenPC.inc k) → c.log = [] → (∀ i, i < k → c.shared.ctr.getD i 0 = 255) →
      k ≤ c.shared.ctr.length → c.shared.b = List.replicate 16 255 →
      ∃ c' : Mutex.Config M, Mutex.Reachable M (GenState.init (List.replicate 16 255)) c' ∧
        c'.threads 7 = .inside () GenPC.reset ∧ c'.log = [] ∧ c'.shared.b = List.replicate 16 255 := by
    intro k
    induction k with
    | zero =>
      intro _ c hr ht hl _ _ hb
      exact ⟨_, hr.step (.micro _ 7 () _ _ _ ht (GenStep.incEnd _)), by simp [Mutex.setThread], hl, hb⟩
    | succ k ih =>
      intro hk c hr ht hl hc hlen hb
      refine ih (by omega) _ (hr.step (.micro _ 7 () _ _ _ ht (GenStep.incNext _ k ?_))) ?_ hl ?_ ?_ hb
      · rw [hc k (by omega)]; decide
      · simp [Mutex.setThread]
      · intro i hi
        have : ¬ k = i := by omega
        simp only [List.getD_eq_getElem?_getD, List.getElem?_set, this, if_false]
        rw [← List.getD_eq_getElem?_getD]
        exact hc i (by omega)
      · simp; omega
  obtain ⟨c', h1, h2, h3, h4⟩ := loop 16 (by omega) _ r5 rfl rfl (by
    intro i hi
    show List.getD (List.replicate 16 255) i 0 = 255
    rw [List.getD_eq_getElem?_getD, List.getElem?_replicate]
    simp [hi]) (by simp [GenState.init, Mutex.Config.init]) rfl
  have r6 := h1.step (.micro _ 7 () _ _ _ h2 (GenStep.reset _))
  have r7 := r6.step (.micro _ 7 () _ _ _ (by simp [Mutex.setThread]) (GenStep.load _))
  have r8 := r7.step (.finish _ 7 () _ _ _ (by simp [Mutex.setThread]; rfl) (GenStep.bump _ _))
  refine ⟨_, r8, ?_⟩
  simp only [h3, h4, List.nil_append, List.map_cons, List.map_nil]
  rfl

/-- C06: in terms of the IDs handed out: the two IDs of block `i` never both equal the two IDs of block `j`. -/
theorem generated_pairs_distinct (E : Bytes → Bytes) (hE : BlockCipher E) (c0 : Bytes) (h0 : c0.length = 16)
    (c : Mutex.Config (genMachine E)) (hc : Mutex.Reachable (genMachine E) (GenState.init c0) c)
    (i j : Nat) (hi : i < 2 ^ 128) (hj : j < 2 ^ 128) (hij : i ≠ j) (a b a' b' : ID)
    (h1 : (c.log.map fun e => e.2.2)[2 * i]? = some a) (h2 : (c.log.map fun e => e.2.2)[2 * i + 1]? = some b)
    (h3 : (c.log.map fun e => e.2.2)[2 * j]? = some a') (h4 : (c.log.map fun e => e.2.2)[2 * j + 1]? = some b') :
    (a, b) ≠ (a', b') := by
  rw [generated_ids_are_keystream E c0 h0 c hc _ _ h1, generated_ids_are_keystream E c0 h0 c hc _ _ h2,
    generated_ids_are_keystream E c0 h0 c hc _ _ h3, generated_ids_are_keystream E c0 h0 c hc _ _ h4]
  exact id_pairs_never_repeat E hE c0 i j hi hj hij

/-- C07: the span obtained by a child call has the trace ID of the span it was derived from, and that span's ID as its
parent; and each call yields a span. -/
theorem child_of_its_parent (src : Nat → ID) (ops : List DeriveOp) (hw : WellFormed ops) (i k : Nat)
    (h : ops[i]? = some (DeriveOp.child k)) :
    ∃ d p, (deriveAll src ops)[i]? = some d ∧ (deriveAll src ops)[k]? = some p ∧
      d.trace = p.trace ∧ d.parent = p.span := by
  obtain ⟨-, -, h3, -⟩ := derive_inv src ops hw
  obtain ⟨a, -, p, hp, hd⟩ := h3 i k h
  exact ⟨_, p, hd, hp, rfl, rfl⟩

/-- C07: every span derived from a root by any chain of child calls has the root's trace ID. -/
theorem lineage_shares_trace (src : Nat → ID) (ops : List DeriveOp) (hw : WellFormed ops) (i r : Nat)
    (h : DescendsFrom ops i r) :
    ∃ d p, (deriveAll src ops)[i]? = some d ∧ (deriveAll src ops)[r]? = some p ∧
      d.trace = p.trace ∧ p.isRoot = true := by
  induction h with
  | root h =>
    obtain ⟨-, h2, -, -⟩ := derive_inv src ops hw
    obtain ⟨a, -, -, hx⟩ := h2 _ h
    exact ⟨_, _, hx, hx, rfl, rfl⟩
  | child h _ ih =>
    obtain ⟨d, p, hd, hp, ht, hr⟩ := ih
    obtain ⟨d', p', hd', hp', ht', -⟩ := child_of_its_parent src ops hw _ _ h
    unfold deriveAll at hd hp' ⊢
    rw [hd] at hp'
    cases hp'
    exact ⟨d', p, hd', hp, ht'.trans ht, hr⟩

/-- C07: a span obtained by a root call reports `IsRoot`; one obtained by a child call does exactly if the ID generated
for its parent happens to be zero. -/
theorem is_root_iff (src : Nat → ID) (ops : List DeriveOp) (hw : WellFormed ops) (i : Nat) (hi : i < ops.length) :
    ∃ d, (deriveAll src ops)[i]? = some d ∧
      (d.isRoot = true ↔ ops[i]? = some DeriveOp.root ∨
        ∃ k p, ops[i]? = some (DeriveOp.child k) ∧ (deriveAll src ops)[k]? = some p ∧ p.span = 0) := by
  obtain ⟨-, h2, -, -⟩ := derive_inv src ops hw
  cases hop : ops[i]? with
  | none => rw [List.getElem?_eq_none_iff] at hop; omega
  | some op =>
    cases op with
    | root =>
      obtain ⟨a, -, -, hx⟩ := h2 i hop
      exact ⟨_, hx, by simp [SpanID.isRoot]⟩
    | child k =>
      obtain ⟨d, p, hd, hp, -, hq⟩ := child_of_its_parent src ops hw i k hop
      refine ⟨d, hd, ?_⟩
      constructor
      · intro h
        refine .inr ⟨k, p, rfl, hp, ?_⟩
        rw [← hq]
        simpa [SpanID.isRoot] using h
      · rintro (h | ⟨k', p', h, hp', hz⟩)
        · cases h
        · cases h
          rw [hp] at hp'
          cases hp'
          simp [SpanID.isRoot, hq, hz]

/-- C07: as long as `generateID` does not return the same ID twice, all spans obtained have different span IDs. -/
theorem spans_distinct (src : Nat → ID) (hsrc : ∀ i j, src i = src j → i = j) (ops : List DeriveOp)
    (hw : WellFormed ops) (i j : Nat) (d e : SpanID) (hd : (deriveAll src ops)[i]? = some d)
    (he : (deriveAll src ops)[j]? = some e) (hij : i ≠ j) : d.span ≠ e.span := by
  obtain ⟨hlen, -, -, a, ha, hmono⟩ := derive_inv src ops hw
  have hi : i < ops.length := by rw [← hlen]; exact (List.getElem?_eq_some_iff.1 hd).1
  have hj : j < ops.length := by rw [← hlen]; exact (List.getElem?_eq_some_iff.1 he).1
  obtain ⟨-, t, q, h1⟩ := ha i hi
  obtain ⟨-, t', q', h2⟩ := ha j hj
  unfold deriveAll at hd he
  rw [h1] at hd
  rw [h2] at he
  cases hd
  cases he
  intro h
  have := hsrc _ _ h
  rcases Nat.lt_or_ge i j with hl | hl
  · have := hmono i j hl hj; omega
  · have := hmono j i (by omega) hi; omega

/-- A root, a child, a grandchild, a second child and an unrelated root. -/
def sampleDerive : List DeriveOp := [.root, .child 0, .child 1, .child 0, .root]

example : WellFormed sampleDerive := by
  intro i k h
  match i, h with
  | 0, h => cases h
  | 1, h => cases h; decide
  | 2, h => cases h; decide
  | 3, h => cases h; decide
  | 4, h => cases h
  | n + 5, h => cases h

example : DescendsFrom sampleDerive 2 0 := .child (k := 1) rfl (.child (k := 0) rfl (.root rfl))

example : deriveAll (fun i => UInt64.ofNat (i + 10)) sampleDerive =
    [⟨10, 11, 0⟩, ⟨10, 12, 11⟩, ⟨10, 13, 12⟩, ⟨10, 14, 11⟩, ⟨15, 16, 0⟩] := by decide

end Appdash
