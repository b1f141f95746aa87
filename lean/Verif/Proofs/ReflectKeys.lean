import Verif.Spec.Event
import Verif.Proofs.Strconv
import Verif.Proofs.Float
import Mathlib.Tactic.NormNum

/-! # Order of keys, and the basic loops of the decoder -/

namespace Appdash

/-- The dates that exist pass the checks of `time.Parse`. -/
theorem inRange_of_exists (t : GoTime) (h : t.exists = true) : t.inRange = true := by
  simp only [GoTime.exists, Bool.and_eq_true, decide_eq_true_eq] at h
  obtain ⟨⟨⟨⟨⟨h1, h2⟩, h3⟩, h4⟩, h5⟩, h6⟩ := h
  have hm : t.month ≤ 12 := by
    rcases Nat.lt_or_ge 12 t.month with hl | hl
    · rw [List.getD_eq_getElem?_getD, List.getElem?_eq_none (by simp [monthLengths]; omega)] at h3
      simp at h3
      omega
    · exact hl
  have hd : t.day ≤ daysIn t.year t.month := by
    have h12 : t.month = 1 ∨ t.month = 2 ∨ t.month = 3 ∨ t.month = 4 ∨ t.month = 5 ∨ t.month = 6 ∨ t.month = 7 ∨ t.month = 8 ∨
      t.month = 9 ∨ t.month = 10 ∨ t.month = 11 ∨ t.month = 12 := by omega
    rcases h12 with e | e | e | e | e | e | e | e | e | e | e | e <;> rw [e] at h3 ⊢ <;>
      simp only [monthLengths, daysIn, isLeap] at h3 ⊢ <;> simp at h3 ⊢ <;> try omega
    refine Nat.le_trans h3 ?_
    simp only [Nat.dvd_iff_mod_eq_zero]
    by_cases a : t.year % 4 = 0 <;> by_cases b : t.year % 100 = 0 <;> by_cases c : t.year % 400 = 0 <;> simp [a, b, c]
  simp only [GoTime.inRange, Bool.and_eq_true, decide_eq_true_eq]
  omega


/-! ## Byte order -/

theorem blt_irrefl (a : Bytes) : ¬ a < a := List.lt_irrefl a

theorem blt_trans {a b c : Bytes} (h : a < b) (h' : b < c) : a < c := List.lt_trans h h'

theorem blt_tri (a b : Bytes) : a < b ∨ a = b ∨ b < a := by
  by_cases h : a < b
  · exact .inl h
  · by_cases h' : b < a
    · exact .inr (.inr h')
    · exact .inr (.inl (List.le_antisymm h' h))

theorem blt_append_left (p : Bytes) {a b : Bytes} : p ++ a < p ++ b ↔ a < b := by
  induction p with
  | nil => exact Iff.rfl
  | cons c p ih =>
    simp only [List.cons_append, List.cons_lt_cons_iff]
    constructor
    · rintro (h | ⟨_, h⟩)
      · exact absurd h (by simp)
      · exact ih.1 h
    · intro h; exact .inr ⟨trivial, ih.2 h⟩

/-! ## Clashes -/

theorem clash_refl (p : Bytes) : clash p p = true := by
  induction p with
  | nil => rfl
  | cons a p ih => simp [clash, ih]

theorem clash_dot (p r : Bytes) : clash p (p ++ 46 :: r) = true := by
  induction p with
  | nil => simp [clash]
  | cons a p ih => simp [clash, ih]

theorem clash_trans {p q g : Bytes} (h1 : clash p q = true) (h2 : clash q g = true) : clash p g = true := by
  induction p generalizing q g with
  | nil =>
    cases q with
    | nil => exact h2
    | cons b q =>
      cases g with
      | nil => rfl
      | cons c g =>
        simp only [clash, Bool.and_eq_true, decide_eq_true_eq] at h1 h2 ⊢
        rw [← h2.1]; exact h1
  | cons a p ih =>
    cases q with
    | nil => simp [clash] at h1
    | cons b q =>
      cases g with
      | nil => simp [clash] at h2
      | cons c g =>
        simp only [clash, Bool.and_eq_true, decide_eq_true_eq] at h1 h2 ⊢
        exact ⟨h1.1.trans h2.1, ih h1.2 h2.2⟩

theorem clash_prefix {p g : Bytes} (h : clash p g = true) : p.isPrefixOf g = true := by
  induction p generalizing g with
  | nil => rfl
  | cons a p ih =>
    cases g with
    | nil => simp [clash] at h
    | cons b g =>
      simp only [clash, Bool.and_eq_true, decide_eq_true_eq] at h
      simp [List.isPrefixOf, h.1, ih h.2]

theorem clash_append_left (p a b : Bytes) : clash (p ++ a) (p ++ b) = clash a b := by
  induction p with
  | nil => rfl
  | cons c p ih => simp [clash, ih]

theorem clash_sep {a b g g' : Bytes} (hlt : a < b) (hc : clash a b = false) (h1 : clash a g = true)
    (h2 : clash b g' = true) : g < g' := by
  induction a generalizing b g g' with
  | nil =>
    cases b with
    | nil => exact absurd hlt (blt_irrefl _)
    | cons c b =>
      cases g' with
      | nil => simp [clash] at h2
      | cons d g' =>
        simp only [clash, Bool.and_eq_true, decide_eq_true_eq] at h2
        cases g with
        | nil => exact List.nil_lt_cons _ _
        | cons e g =>
          simp only [clash, decide_eq_true_eq, decide_eq_false_iff_not] at h1 hc
          rw [List.cons_lt_cons_iff]
          left
          rw [← h2.1]
          rw [UInt8.le_iff_toNat_le] at h1 hc
          rw [UInt8.lt_iff_toNat_lt]
          omega
  | cons x a ih =>
    cases b with
    | nil => exact absurd hlt (List.not_lt_nil _)
    | cons c b =>
      cases g' with
      | nil => simp [clash] at h2
      | cons d g' =>
        cases g with
        | nil => simp [clash] at h1
        | cons e g =>
          simp only [clash, Bool.and_eq_true, decide_eq_true_eq] at h1 h2
          rw [List.cons_lt_cons_iff] at hlt ⊢
          rw [← h1.1, ← h2.1]
          rcases hlt with hlt | ⟨heq, hlt⟩
          · exact .inl hlt
          · subst heq
            simp only [clash, decide_true, Bool.true_and] at hc
            exact .inr ⟨rfl, ih hlt hc h1.2 h2.2⟩

/-- Two clash cones of paths that do not clash are disjoint. -/
theorem clash_disjoint {a b g : Bytes} (h1 : clash a b = false) (h2 : clash b a = false) (ha : clash a g = true)
    (hb : clash b g = true) : False := by
  rcases blt_tri a b with h | h | h
  · exact blt_irrefl _ (clash_sep h h1 ha hb)
  · subst h; rw [clash_refl] at h1; exact absurd h1 (by decide)
  · exact blt_irrefl _ (clash_sep h h2 hb ha)

theorem nest_clash_nest (pre a b : Bytes) : clash (nest pre a) (nest pre b) = clash a b := by
  unfold nest
  split
  · rfl
  · rw [clash_append_left]; simp [clash]

theorem nest_lt_nest (pre a b : Bytes) : nest pre a < nest pre b ↔ a < b := by
  unfold nest
  split
  · exact Iff.rfl
  · rw [blt_append_left, List.cons_lt_cons_iff]; simp

theorem nest_ne_nil (pre : Bytes) {n : Bytes} (h : n ≠ []) : nest pre n ≠ [] := by
  unfold nest
  split
  · exact h
  · simp

theorem clash_nest {pre : Bytes} (h : pre ≠ []) (n : Bytes) : clash pre (nest pre n) = true := by
  simp only [nest, h, if_false]; exact clash_dot _ _

/-! ## Prefixes and order -/

theorem isPrefixOf_append {p g : Bytes} : p.isPrefixOf g = true ↔ ∃ r, g = p ++ r := by
  rw [List.isPrefixOf_iff_prefix]
  constructor
  · rintro ⟨r, h⟩; exact ⟨r, h.symm⟩
  · rintro ⟨r, h⟩; exact ⟨r, h.symm⟩

theorem not_lt_prefix {p g : Bytes} (h : p.isPrefixOf g = true) : ¬ g < p := by
  obtain ⟨r, rfl⟩ := isPrefixOf_append.1 h
  intro hlt
  have : p ++ r < p ++ [] := by rwa [List.append_nil]
  rw [blt_append_left] at this
  exact List.not_lt_nil _ this

theorem prefix_between {p a x b : Bytes} (ha : p.isPrefixOf a = true) (hb : p.isPrefixOf b = true) (h1 : a < x)
    (h2 : x < b) : p.isPrefixOf x = true := by
  induction p generalizing a x b with
  | nil => rfl
  | cons c p ih =>
    cases a with
    | nil => simp at ha
    | cons a' a =>
      cases b with
      | nil => simp at hb
      | cons b' b =>
        cases x with
        | nil => exact absurd h1 (List.not_lt_nil _)
        | cons x' x =>
          simp only [List.isPrefixOf, Bool.and_eq_true, beq_iff_eq] at ha hb ⊢
          obtain ⟨rfl, ha⟩ := ha
          obtain ⟨rfl, hb⟩ := hb
          rw [List.cons_lt_cons_iff] at h1 h2
          rw [UInt8.lt_iff_toNat_lt] at h1 h2
          rcases h1 with h1 | ⟨rfl, h1⟩
          · rcases h2 with h2 | ⟨rfl, h2⟩
            · omega
            · omega
          · rcases h2 with h2 | ⟨_, h2⟩
            · omega
            · exact ⟨rfl, ih ha hb h1 h2⟩

/-! ## Sorted pair lists -/

/-- Strictly increasing keys. -/
abbrev SortedKV {α : Type} (l : List (Bytes × α)) : Prop := l.Pairwise fun a b => a.1 < b.1

theorem mem_insertKV {α : Type} {e x : Bytes × α} {l : List (Bytes × α)} : x ∈ insertKV e l ↔ x = e ∨ x ∈ l := by
  induction l with
  | nil => simp [insertKV]
  | cons f l ih =>
    simp only [insertKV]
    split
    · simp
    · simp only [List.mem_cons, ih]
      constructor
      · rintro (h | h | h)
        · exact .inr (.inl h)
        · exact .inl h
        · exact .inr (.inr h)
      · rintro (h | h | h)
        · exact .inr (.inl h)
        · exact .inl h
        · exact .inr (.inr h)

theorem mem_sortKV {α : Type} {x : Bytes × α} {l : List (Bytes × α)} : x ∈ sortKV l ↔ x ∈ l := by
  induction l with
  | nil => simp [sortKV]
  | cons e l ih => simp [sortKV, mem_insertKV, ih]

theorem sorted_insertKV {α : Type} {e : Bytes × α} {l : List (Bytes × α)} (hs : SortedKV l) (hn : ∀ x ∈ l, x.1 ≠ e.1) :
    SortedKV (insertKV e l) := by
  induction l with
  | nil => simp [insertKV, SortedKV]
  | cons f l ih =>
    have hs' := hs
    rw [SortedKV, List.pairwise_cons] at hs'
    simp only [insertKV]
    split
    · rename_i h
      rw [SortedKV, List.pairwise_cons]
      refine ⟨?_, hs⟩
      intro x hx
      rcases List.mem_cons.1 hx with rfl | hx
      · exact h
      · exact blt_trans h (hs'.1 x hx)
    · rename_i h
      rw [SortedKV, List.pairwise_cons]
      refine ⟨?_, ih hs'.2 fun x hx => hn x (List.mem_cons_of_mem _ hx)⟩
      intro x hx
      rcases mem_insertKV.1 hx with rfl | hx
      · rcases blt_tri f.1 x.1 with h' | h' | h'
        · exact h'
        · exact absurd h' (hn f (List.mem_cons_self ..))
        · exact absurd h' h
      · exact hs'.1 x hx

theorem sorted_sortKV {α : Type} {l : List (Bytes × α)} (hn : (l.map Prod.fst).Nodup) : SortedKV (sortKV l) := by
  induction l with
  | nil => exact List.Pairwise.nil
  | cons e l ih =>
    rw [List.map_cons, List.nodup_cons] at hn
    refine sorted_insertKV (ih hn.2) ?_
    intro x hx he
    exact hn.1 (List.mem_map.2 ⟨x, mem_sortKV.1 hx, he⟩)

theorem perm_insertKV {α : Type} (e : Bytes × α) (l : List (Bytes × α)) : (insertKV e l).Perm (e :: l) := by
  induction l with
  | nil => exact List.Perm.refl _
  | cons f l ih =>
    simp only [insertKV]
    split
    · exact List.Perm.refl _
    · exact (List.Perm.cons f ih).trans (List.Perm.swap e f l)

theorem perm_sortKV {α : Type} (l : List (Bytes × α)) : (sortKV l).Perm l := by
  induction l with
  | nil => exact List.Perm.refl _
  | cons e l ih => exact (perm_insertKV e _).trans (List.Perm.cons e ih)

theorem sorted_suffix {α : Type} {l l' : List (Bytes × α)} (h : l' <:+ l) (hs : SortedKV l) : SortedKV l' :=
  List.Pairwise.sublist h.sublist hs

/-- In a sorted list, a suffix that contains a key contains everything after it. -/
theorem mem_suffix_of_lt {l l' : List KV} (hs : SortedKV l) (h : l' <:+ l) {a e : KV} (ha : a ∈ l') (he : e ∈ l)
    (hlt : a.1 < e.1) : e ∈ l' := by
  obtain ⟨d, rfl⟩ := h
  rcases List.mem_append.1 he with hd | hd
  · have := (List.pairwise_append.1 hs).2.2 e hd a ha
    exact absurd (blt_trans hlt this) (blt_irrefl _)
  · exact hd

theorem sorted_key_inj {l : List KV} (hs : SortedKV l) {a b : KV} (ha : a ∈ l) (hb : b ∈ l) (h : a.1 = b.1) : a = b := by
  induction l with
  | nil => simp at ha
  | cons c l ih =>
    rw [SortedKV, List.pairwise_cons] at hs
    rcases List.mem_cons.1 ha with rfl | ha'
    · rcases List.mem_cons.1 hb with rfl | hb'
      · rfl
      · have := hs.1 b hb'; rw [h] at this; exact absurd this (blt_irrefl _)
    · rcases List.mem_cons.1 hb with rfl | hb'
      · have := hs.1 a ha'; rw [h] at this; exact absurd this (blt_irrefl _)
      · exact ih hs.2 ha' hb'

/-! ## `dropUntil` -/

theorem dropUntil_nil_pre (kv : List KV) : dropUntil [] kv = kv := by
  cases kv <;> simp [dropUntil]

theorem dropUntil_suffix (pre : Bytes) (kv : List KV) : dropUntil pre kv <:+ kv := by
  induction kv with
  | nil => exact List.suffix_refl _
  | cons e kv ih =>
    simp only [dropUntil]
    split
    · exact List.suffix_refl _
    · exact ih.trans (List.suffix_cons e kv)

theorem mem_dropUntil {pre : Bytes} {kv : List KV} {e : KV} (he : e ∈ kv) (hp : pre.isPrefixOf e.1 = true) :
    e ∈ dropUntil pre kv := by
  induction kv with
  | nil => simp at he
  | cons f kv ih =>
    simp only [dropUntil]
    split
    · exact he
    · rename_i h
      rcases List.mem_cons.1 he with rfl | he
      · exact absurd hp h
      · exact ih he

theorem dropUntil_head {pre : Bytes} {kv : List KV} {e : KV} {rest : List KV} (h : dropUntil pre kv = e :: rest) :
    pre.isPrefixOf e.1 = true := by
  induction kv with
  | nil => simp [dropUntil] at h
  | cons f kv ih =>
    simp only [dropUntil] at h
    split at h
    · rename_i hp
      simp only [List.cons.injEq] at h
      rw [← h.1]; exact hp
    · exact ih h

/-! ## Scalars -/

theorem wrapInt_id {b : Nat} {i : Int} (hb : b ∈ [8, 16, 32, 64]) (h1 : -2 ^ (b - 1) ≤ i) (h2 : i < 2 ^ (b - 1)) :
    wrapInt b i = i := by
  simp only [List.mem_cons, List.not_mem_nil, or_false] at hb
  unfold wrapInt
  rcases hb with rfl | rfl | rfl | rfl <;> norm_num at h1 h2 <;> rw [Int.bmod_def] <;> split <;> omega

/-- What `fits32` says: a number of at most 24 bits times a power of two of at least 2^925 units, less than 2^128. -/
theorem fits32_iff (k : Nat) :
    fits32 k = true ↔ (∃ m e, m < 2 ^ 24 ∧ 925 ≤ e ∧ k = m * 2 ^ e) ∧ k < 2 ^ (128 + 1074) := by
  rw [← hasBits_iff]
  simp only [fits32, Bool.and_eq_true, decide_eq_true_eq]
  rfl

set_option exponentiation.threshold 2100 in
theorem GoFloat.is32_of_fits32 {x : GoFloat} (h : x.fits32 = true) : x.Is32 := by
  cases x with
  | fin neg k =>
    simp only [GoFloat.fits32, Appdash.fits32, Bool.and_eq_true, decide_eq_true_eq] at h
    exact h
  | _ => trivial

theorem parseScalar_text {s : ScalarTy} {x : Scalar} (h : s.holds x = true) : parseScalar s x.text = some x := by
  unfold ScalarTy.holds at h
  split at h
  · simp [parseScalar, Scalar.text, parseBool_formatBool]
  · rename_i b i
    simp only [Bool.and_eq_true, decide_eq_true_eq] at h
    obtain ⟨⟨hb, h1⟩, h2⟩ := h
    have r : (-2 ^ 63 : Int) ≤ i ∧ i < 2 ^ 63 := by
      have hb' := hb
      simp only [List.mem_cons, List.not_mem_nil, or_false] at hb'
      rcases hb' with rfl | rfl | rfl | rfl <;> norm_num at h1 h2 ⊢ <;> omega
    simp only [parseScalar, Scalar.text]
    rw [parseIntDec_formatInt i r.1 r.2]
    simp only [Option.map_some, wrapInt_id hb h1 h2]
  · rename_i b n
    simp only [Bool.and_eq_true, decide_eq_true_eq] at h
    obtain ⟨hb, h1⟩ := h
    have r : n < 2 ^ 64 := by
      have hb' := hb
      simp only [List.mem_cons, List.not_mem_nil, or_false] at hb'
      rcases hb' with rfl | rfl | rfl | rfl <;> norm_num at h1 ⊢ <;> omega
    simp only [parseScalar, Scalar.text]
    rw [parseUintDec_formatDec n r]
    simp only [Option.map_some, wrapUint, Nat.mod_eq_of_lt h1]
  · rfl
  · rename_i t
    simp only [Bool.and_eq_true, decide_eq_true_eq] at h
    simp only [parseScalar, Scalar.text]
    rw [parseTime_formatTime t h.1.1.2 (inRange_of_exists t h.1.1.1) h.1.2 (by omega)]
    rfl
  · rename_i b x
    simp only [Bool.and_eq_true] at h
    simp only [parseScalar, Scalar.text]
    rw [parseFloat_formatFloat_narrow (GoFloat.is32_of_fits32 h.2)]
    rfl
  · rename_i d
    simp only [Bool.and_eq_true, decide_eq_true_eq] at h
    simp only [parseScalar, Scalar.text]
    rw [duration_whole h.1 h.2]
    rfl
  · simp at h

end Appdash
