import Verif.Proofs.StoreAbs
import Verif.Spec.Store

/-! # Invariants of the memory store -/

namespace Appdash

open Spec

/-- Structural invariant of one trace. -/
structure AInv (T : ATrace) : Prop where
  root_in : (T.par T.root).isSome = true
  dom_c : ∀ p c, c ∈ T.sub p → (T.par c).isSome = true
  dom_p : ∀ p c, c ∈ T.sub p → (T.par p).isSome = true
  wf : Forest.Wf T.sub T.root
  has : ∀ c, (T.par c).isSome = true → c ≠ T.root → ∃ p, c ∈ T.sub p
  place : ∀ p c, c ∈ T.sub p → T.par c = some p ∨ (p = T.root ∧ ∃ q, T.par c = some q ∧ T.par q = none)

/-- Where a moved child ends up, and what the new tree looks like, in abstract form: every old child `c` of `y`
is now a child of `mv y c`, and one span `x` is attached to `tgt`. -/
structure Moved (T T' : ATrace) (x tgt : ID) (mv : ID → ID → ID) : Prop where
  mem : ∀ y c, c ∈ T'.sub y ↔ (c = x ∧ y = tgt) ∨ (c ≠ x ∧ ∃ z, c ∈ T.sub z ∧ y = mv z c)
  nodup : ∀ y, (T'.sub y).Nodup

theorem Moved.uniq {T T' : ATrace} {x tgt : ID} {mv : ID → ID → ID} (m : Moved T T' x tgt mv)
    (w : ∀ p q c, c ∈ T.sub p → c ∈ T.sub q → p = q) :
    ∀ p q c, c ∈ T'.sub p → c ∈ T'.sub q → p = q := by
  intro p q c h1 h2
  rcases (m.mem p c).1 h1 with ⟨e1, e2⟩ | ⟨e1, z, hz, e2⟩
  · rcases (m.mem q c).1 h2 with ⟨-, e4⟩ | ⟨e3, -⟩
    · rw [e2, e4]
    · exact absurd e1 e3
  · rcases (m.mem q c).1 h2 with ⟨e3, -⟩ | ⟨-, z', hz', e4⟩
    · exact absurd e3 e1
    · rw [e2, e4, w z z' c hz hz']

/-! ## Membership and distinctness after each elementary step -/

theorem mem_appendSub (T : ATrace) (p : ID) (cs : List ID) (y c : ID) :
    c ∈ (T.appendSub p cs).sub y ↔ c ∈ T.sub y ∨ (y = p ∧ c ∈ cs) := by
  simp only [ATrace.appendSub, upd]
  by_cases e : y = p
  · subst e; simp
  · simp [e]

theorem mem_setSub (T : ATrace) (p : ID) (cs : List ID) (y c : ID) :
    c ∈ (T.setSub p cs).sub y ↔ (y = p ∧ c ∈ cs) ∨ (y ≠ p ∧ c ∈ T.sub y) := by
  simp only [ATrace.setSub, upd]
  by_cases e : y = p
  · subst e; simp
  · simp [e]

theorem mem_reattach (T : ATrace) {dst src : ID} (hne : dst ≠ src) (y c : ID) :
    c ∈ (T.reattach dst src).sub y ↔
      (y = dst ∧ c ∈ T.sub src ∧ T.par c = some dst) ∨ (c ∈ T.sub y ∧ ¬ (y = src ∧ T.par c = some dst)) := by
  unfold ATrace.reattach
  rw [mem_setSub, mem_appendSub]
  simp only [List.mem_filter, decide_eq_true_eq]
  constructor
  · rintro (⟨rfl, h1, h2⟩ | ⟨h1, h2 | ⟨rfl, h2, h3⟩⟩)
    · exact Or.inr ⟨h1, fun h => h2 h.2⟩
    · exact Or.inr ⟨h2, fun h => h1 h.1⟩
    · exact Or.inl ⟨rfl, h2, h3⟩
  · rintro (⟨rfl, h1, h2⟩ | ⟨h1, h2⟩)
    · exact Or.inr ⟨hne, Or.inr ⟨rfl, h1, h2⟩⟩
    · by_cases e : y = src
      · subst e
        exact Or.inl ⟨rfl, h1, fun h => h2 ⟨rfl, h⟩⟩
      · exact Or.inr ⟨e, Or.inl h1⟩

theorem mem_moveTemp (T : ATrace) {old : ID} (hne : T.root ≠ old) (y c : ID) :
    c ∈ (T.moveTemp old).sub y ↔
      (y = T.root ∧ c ∈ T.sub old ∧ T.par c ≠ some old) ∨ (c ∈ T.sub y ∧ ¬ (y = old ∧ T.par c ≠ some old)) := by
  unfold ATrace.moveTemp
  rw [mem_setSub, mem_appendSub]
  simp only [List.mem_filter, decide_eq_true_eq]
  constructor
  · rintro (⟨rfl, h1, h2⟩ | ⟨h1, h2 | ⟨rfl, h2, h3⟩⟩)
    · exact Or.inr ⟨h1, fun h => h.2 h2⟩
    · exact Or.inr ⟨h2, fun h => h1 h.1⟩
    · exact Or.inl ⟨rfl, h2, h3⟩
  · rintro (⟨rfl, h1, h2⟩ | ⟨h1, h2⟩)
    · exact Or.inr ⟨hne, Or.inr ⟨rfl, h1, h2⟩⟩
    · by_cases e : y = old
      · subst e
        refine Or.inl ⟨rfl, h1, ?_⟩
        by_cases h : T.par c = some y
        · exact h
        · exact absurd ⟨rfl, h⟩ h2
      · exact Or.inr ⟨e, Or.inl h1⟩

theorem nodup_move (T : ATrace) {dst src : ID} (f g : ID → Bool) (hn : ∀ y, (T.sub y).Nodup)
    (hd : ∀ c, c ∈ T.sub dst → c ∉ T.sub src) (y : ID) :
    (((T.appendSub dst ((T.sub src).filter f)).setSub src ((T.sub src).filter g)).sub y).Nodup := by
  simp only [ATrace.appendSub, ATrace.setSub, upd]
  split
  · exact (hn src).filter _
  · split
    · rw [List.nodup_append]
      refine ⟨hn _, (hn _).filter _, ?_⟩
      intro a ha b hb
      rintro rfl
      exact hd a ha (List.mem_filter.1 hb).1
    · exact hn y

/-- Where `insert` puts a span whose parent is `p`. -/
def ATrace.target (T : ATrace) (p : ID) : ID := if (T.par p).isSome then p else T.root

theorem mem_insert (T : ATrace) {x p : ID} (hp : T.par x = some p) (y c : ID) :
    c ∈ (T.insert x).sub y ↔ c ∈ T.sub y ∨ (c = x ∧ y = T.target p) := by
  unfold ATrace.insert ATrace.target
  simp only [hp]
  split
  · rw [mem_appendSub]; simp [and_comm]
  · rw [mem_appendSub]; simp [and_comm]

theorem nodup_insert (T : ATrace) (x : ID) (hn : ∀ y, (T.sub y).Nodup) (hx : ∀ y, x ∉ T.sub y) (y : ID) :
    ((T.insert x).sub y).Nodup := by
  have key : ∀ q, ((T.appendSub q [x]).sub y).Nodup := by
    intro q
    simp only [ATrace.appendSub, upd]
    split
    · rw [List.nodup_append]
      refine ⟨hn _, by simp, ?_⟩
      intro a ha b hb
      simp only [List.mem_singleton] at hb
      subst hb
      rintro rfl
      exact hx _ ha
    · exact hn y
  unfold ATrace.insert
  split
  · exact hn y
  · split <;> exact key _

@[simp] theorem insert_root (T : ATrace) (x : ID) : (T.insert x).root = T.root := by
  unfold ATrace.insert
  split
  · rfl
  · split <;> rfl

@[simp] theorem insert_par (T : ATrace) (x : ID) : (T.insert x).par = T.par := by
  unfold ATrace.insert
  split
  · rfl
  · split <;> rfl

@[simp] theorem insert_anns (T : ATrace) (x : ID) : (T.insert x).anns = T.anns := by
  unfold ATrace.insert
  split
  · rfl
  · split <;> rfl

@[simp] theorem reattach_root (T : ATrace) (d o : ID) : (T.reattach d o).root = T.root := rfl
@[simp] theorem reattach_par (T : ATrace) (d o : ID) : (T.reattach d o).par = T.par := rfl
@[simp] theorem reattach_anns (T : ATrace) (d o : ID) : (T.reattach d o).anns = T.anns := rfl
@[simp] theorem moveTemp_root (T : ATrace) (o : ID) : (T.moveTemp o).root = T.root := rfl
@[simp] theorem moveTemp_par (T : ATrace) (o : ID) : (T.moveTemp o).par = T.par := rfl
@[simp] theorem moveTemp_anns (T : ATrace) (o : ID) : (T.moveTemp o).anns = T.anns := rfl

section
variable {T : ATrace} (I : AInv T) {s p : ID} (as : List Annotation) (hs : T.par s = none)
include I hs

theorem AInv.not_mem_sub (y : ID) : s ∉ T.sub y := by
  intro h
  have := I.dom_c y s h
  rw [hs] at this
  simp at this

theorem AInv.sub_nil : T.sub s = [] := by
  cases h : T.sub s with
  | nil => rfl
  | cons c l =>
    have := I.dom_p s c (by simp [h])
    rw [hs] at this
    simp at this

theorem AInv.root_ne : T.root ≠ s := by
  intro e
  have := I.root_in
  rw [e, hs] at this
  simp at this

/-- Description of the ordinary insertion. -/
theorem AInv.insert_moved (hc : ¬ (p = 0 ∨ T.par T.root = some s)) :
    (T.collect s p as).root = T.root ∧ (T.collect s p as).par = upd T.par s (some p) ∧
    Moved T (T.collect s p as) s ((T.addNew s p as).target p)
      (fun y c => if y = T.root ∧ T.par c = some s then s else y) := by
  have hT : T.collect s p as = ((T.addNew s p as).insert s).reattach s T.root := by
    simp [ATrace.collect, hs, hc]
  have hrs := I.root_ne hs
  have hsr : s ≠ T.root := fun e => hrs e.symm
  have hns := I.not_mem_sub hs
  have hnil := I.sub_nil hs
  have hps : (T.addNew s p as).par s = some p := by simp [ATrace.addNew]
  have hpar : ∀ c, c ≠ s → (T.addNew s p as).par c = T.par c := by
    intro c h; simp [ATrace.addNew, upd, h]
  have hsub : (T.addNew s p as).sub = T.sub := by
    funext y
    simp only [ATrace.addNew, upd]
    split
    · rename_i e; subst e; exact hnil.symm
    · rfl
  generalize htgt : (T.addNew s p as).target p = tgt
  have htgt' : tgt = T.root → p ≠ s := by
    intro e hp
    subst hp
    unfold ATrace.target at htgt
    rw [hps] at htgt
    simp at htgt
    exact hsr (htgt.trans e)
  have hmemI : ∀ y c, c ∈ ((T.addNew s p as).insert s).sub y ↔ c ∈ T.sub y ∨ (c = s ∧ y = tgt) := by
    intro y c
    rw [mem_insert _ hps, htgt, hsub]
  rw [hT]
  refine ⟨by simp [ATrace.addNew], by simp [ATrace.addNew], ?_, ?_⟩
  · intro y c
    rw [mem_reattach _ hsr, hmemI, hmemI, insert_par]
    by_cases e : c = s
    · subst e
      rw [hps]
      have h1 : ∀ z, c ∉ T.sub z := hns
      simp only [h1, false_or, true_and, Option.some.injEq, ne_eq, not_true_eq_false, false_and, or_false]
      constructor
      · rintro (⟨rfl, h2, h3⟩ | ⟨h2, -⟩)
        · exact absurd h3 (htgt' h2.symm)
        · exact h2
      · intro h2
        refine Or.inr ⟨h2, ?_⟩
        rintro ⟨h3, h4⟩
        exact htgt' (h2 ▸ h3) h4
    · rw [hpar c e]
      simp only [e, false_and, or_false, false_or, ne_eq, not_false_eq_true, true_and]
      constructor
      · rintro (⟨rfl, h1, h2⟩ | ⟨h1, h2⟩)
        · exact ⟨T.root, h1, by simp [h2]⟩
        · exact ⟨y, h1, by simp [h2]⟩
      · rintro ⟨z, hz, h⟩
        split at h
        · rename_i h'
          exact Or.inl ⟨h, h'.1 ▸ hz, h'.2⟩
        · rename_i h'
          subst h
          exact Or.inr ⟨hz, h'⟩
  · apply nodup_move
    · apply nodup_insert
      · intro y; rw [hsub]; exact I.wf.nodup y
      · intro y; rw [hsub]; exact hns y
    · intro c h1 h2
      rw [hmemI] at h1 h2
      rw [hnil] at h1
      simp only [List.not_mem_nil, false_or] at h1
      obtain ⟨rfl, h3⟩ := h1
      rcases h2 with h2 | ⟨-, h2⟩
      · exact hns _ h2
      · exact hrs (h2.trans h3.symm)

/-- Description of installing a new root. -/
theorem AInv.newRoot_moved (hc : p = 0 ∨ T.par T.root = some s) :
    (T.collect s p as).root = s ∧ (T.collect s p as).par = upd T.par s (some p) ∧
    ∃ q, T.par T.root = some q ∧
    Moved T (T.collect s p as) T.root (if (upd T.par s (some p) q).isSome then q else s)
      (fun y c => if y = T.root ∧ T.par c ≠ some T.root then s else y) := by
  let T0 : ATrace := { T.addNew s p as with root := s }
  have hT : T.collect s p as = ((T0.reattach s T.root).insert T.root).moveTemp T.root := by
    simp [ATrace.collect, hs, hc, T0]
  have hrs := I.root_ne hs
  have hsr : s ≠ T.root := fun e => hrs e.symm
  have hns := I.not_mem_sub hs
  have hnil := I.sub_nil hs
  have hps : T0.par s = some p := by simp [T0, ATrace.addNew]
  have hpar : ∀ c, c ≠ s → T0.par c = T.par c := by
    intro c h; simp [T0, ATrace.addNew, upd, h]
  have hsub : T0.sub = T.sub := by
    funext y
    simp only [T0, ATrace.addNew, upd]
    split
    · rename_i e; subst e; exact hnil.symm
    · rfl
  obtain ⟨q, hq⟩ := Option.isSome_iff_exists.1 I.root_in
  have hq0 : (T0.reattach s T.root).par T.root = some q := by
    rw [reattach_par, hpar _ hrs, hq]
  generalize htgt : (if (upd T.par s (some p) q).isSome then q else s) = tgt
  have htgt0 : (T0.reattach s T.root).target q = tgt := by
    rw [← htgt]; rfl
  have hmemR : ∀ y c, c ∈ (T0.reattach s T.root).sub y ↔
      (y = s ∧ c ∈ T.sub T.root ∧ T.par c = some s) ∨ (c ∈ T.sub y ∧ ¬ (y = T.root ∧ T.par c = some s)) := by
    intro y c
    rw [mem_reattach _ hsr, hsub]
    by_cases e : c = s
    · subst e
      have h1 : ∀ z, c ∉ T.sub z := hns
      simp [h1]
    · rw [hpar c e]
  have hmemI : ∀ y c, c ∈ ((T0.reattach s T.root).insert T.root).sub y ↔
      c ∈ (T0.reattach s T.root).sub y ∨ (c = T.root ∧ y = tgt) := by
    intro y c
    rw [mem_insert _ hq0, htgt0]
  have hroot' : ((T0.reattach s T.root).insert T.root).root = s := by simp [T0]
  have hpar' : ∀ c, c ≠ s → ((T0.reattach s T.root).insert T.root).par c = T.par c := by
    intro c h; rw [insert_par, reattach_par, hpar c h]
  have hrl := I.wf.rootless
  have htq : tgt = T.root → q = T.root := by
    intro e
    rw [e] at htgt
    split at htgt
    · exact htgt
    · exact absurd htgt hsr
  have hrnot : ∀ y, T.root ∉ (T0.reattach s T.root).sub y := by
    intro y h
    rw [hmemR] at h
    rcases h with ⟨-, h, -⟩ | ⟨h, -⟩ <;> exact hrl _ h
  rw [hT]
  refine ⟨by simp [T0], by simp [T0, ATrace.addNew], q, hq, ?_, ?_⟩
  · rw [htgt]
    intro y c
    rw [mem_moveTemp _ (by rw [hroot']; exact hsr), hroot', hmemI, hmemI]
    by_cases e : c = T.root
    · subst e
      have h1 : ∀ z, T.root ∉ T.sub z := hrl
      simp only [hrnot, false_or, true_and, ne_eq, not_true_eq_false, false_and, or_false]
      rw [hpar' _ hrs, hq]
      constructor
      · rintro (⟨h2, h3, h4⟩ | ⟨h2, -⟩)
        · exact absurd (by rw [htq h3.symm]) h4
        · exact h2
      · intro h2
        refine Or.inr ⟨h2, ?_⟩
        rintro ⟨h3, h4⟩
        exact h4 (by rw [htq (h2 ▸ h3)])
    · simp only [e, false_and, or_false, false_or, ne_eq, not_false_eq_true, true_and]
      rw [hmemR, hmemR]
      by_cases e2 : c = s
      · subst e2
        have h1 : ∀ z, c ∉ T.sub z := hns
        simp [h1]
      · rw [hpar' c e2]
        constructor
        · rintro (⟨rfl, h1 | h1, h2⟩ | ⟨h1 | h1, h2⟩)
          · exact absurd h1.1 hrs
          · exact ⟨T.root, h1.1, by simp [h2]⟩
          · refine ⟨T.root, h1.2.1, ?_⟩
            have : ¬ T.par c = some T.root := by
              rw [h1.2.2]; simpa using hsr
            simp [this, h1.1]
          · exact ⟨y, h1.1, by simp [h2]⟩
        · rintro ⟨z, hz, h⟩
          split at h
          · rename_i h'
            obtain ⟨rfl, h'⟩ := h'
            by_cases h3 : T.par c = some s
            · refine Or.inr ⟨Or.inl ⟨h, hz, h3⟩, ?_⟩
              rintro ⟨h4, -⟩
              exact hsr (h ▸ h4)
            · exact Or.inl ⟨h, Or.inr ⟨hz, fun h4 => h3 h4.2⟩, h'⟩
          · rename_i h'
            subst h
            refine Or.inr ⟨Or.inr ⟨hz, ?_⟩, h'⟩
            rintro ⟨h3, h4⟩
            apply h'
            refine ⟨h3, ?_⟩
            rw [h4]
            simpa using hsr
  · apply nodup_move
    · apply nodup_insert
      · apply nodup_move
        · intro y; rw [hsub]; exact I.wf.nodup y
        · intro c h1
          rw [hsub, hnil] at h1
          simp at h1
      · exact hrnot
    · intro c h1 h2
      rw [hroot', hmemI] at h1
      rw [hmemI] at h2
      rw [hmemR] at h1 h2
      rcases h1 with (⟨-, h3, h4⟩ | ⟨h3, -⟩) | ⟨rfl, h3⟩
      · rcases h2 with (⟨h5, -⟩ | ⟨-, h5⟩) | ⟨h5, -⟩
        · exact hrs h5
        · exact h5 ⟨rfl, h4⟩
        · subst h5; exact hrl _ h3
      · rw [hnil] at h3; simp at h3
      · rcases h2 with (⟨-, h5, -⟩ | ⟨h5, -⟩) | ⟨-, h5⟩
        · exact hrl _ h5
        · exact hrl _ h5
        · exact hrs (h5.trans h3.symm)

end

theorem AInv.fresh (s p : ID) (as : List Annotation) : AInv (ATrace.fresh s p as) := by
  refine ⟨by simp [ATrace.fresh], ?_, ?_, ⟨?_, ?_, ?_⟩, ?_, ?_⟩
  · intro p c h; simp [ATrace.fresh] at h
  · intro p c h; simp [ATrace.fresh] at h
  · intro y; simp [ATrace.fresh]
  · intro p q c h; simp [ATrace.fresh] at h
  · intro y; simp [ATrace.fresh]
  · intro c h hne
    simp only [ATrace.fresh, upd] at h hne
    simp [hne] at h
  · intro p c h; simp [ATrace.fresh] at h

/-- The invariant is kept by every `Collect`, whatever the IDs. -/
theorem AInv.collect {T : ATrace} (I : AInv T) (s p : ID) (as : List Annotation) : AInv (T.collect s p as) := by
  cases hs : T.par s with
  | some q =>
    have : T.collect s p as = { T with anns := upd T.anns s (T.anns s ++ as) } := by
      simp [ATrace.collect, hs]
    rw [this]
    exact ⟨I.root_in, I.dom_c, I.dom_p, I.wf, I.has, I.place⟩
  | none =>
    have hns := I.not_mem_sub hs
    have hrs := I.root_ne hs
    have hmono : ∀ x, (T.par x).isSome = true → (upd T.par s (some p) x).isSome = true := by
      intro x hx
      simp only [upd]
      split
      · rfl
      · exact hx
    by_cases hc : p = 0 ∨ T.par T.root = some s
    · obtain ⟨h1, h2, q, hq, m⟩ := I.newRoot_moved as hs hc
      generalize T.collect s p as = T' at h1 h2 m ⊢
      generalize htgt : (if (upd T.par s (some p) q).isSome then q else s) = tgt at m
      have hps : (T'.par s) = some p := by rw [h2]; simp
      have htd : (T'.par tgt).isSome = true := by
        rw [← htgt]
        split
        · rename_i h; rw [h2]; exact h
        · rw [hps]; rfl
      refine ⟨by rw [h1, hps]; rfl, ?_, ?_, ⟨m.nodup, m.uniq I.wf.uniq, ?_⟩, ?_, ?_⟩
      · intro y c h
        rw [h2]
        rcases (m.mem y c).1 h with ⟨rfl, -⟩ | ⟨-, z, hz, -⟩
        · exact hmono _ I.root_in
        · exact hmono _ (I.dom_c z c hz)
      · intro y c h
        rcases (m.mem y c).1 h with ⟨-, rfl⟩ | ⟨-, z, hz, rfl⟩
        · exact htd
        · split
          · rw [hps]; rfl
          · rw [h2]; exact hmono _ (I.dom_p z c hz)
      · intro y h
        rw [h1] at h
        rcases (m.mem y s).1 h with ⟨h, -⟩ | ⟨-, z, hz, -⟩
        · exact hrs h.symm
        · exact hns z hz
      · intro c hcd hne
        rw [h1] at hne
        by_cases e : c = T.root
        · exact ⟨tgt, (m.mem _ _).2 (Or.inl ⟨e, rfl⟩)⟩
        · rw [h2] at hcd
          simp only [upd, hne, if_false] at hcd
          obtain ⟨z, hz⟩ := I.has c hcd e
          exact ⟨_, (m.mem _ _).2 (Or.inr ⟨e, z, hz, rfl⟩)⟩
      · intro y c h
        rw [h1, h2]
        rcases (m.mem y c).1 h with ⟨rfl, rfl⟩ | ⟨hne, z, hz, rfl⟩
        · have : upd T.par s (some p) T.root = some q := by simp [upd, hrs, hq]
          rw [this]
          by_cases h : (upd T.par s (some p) q).isSome = true
          · rw [if_pos h] at htgt
            left; rw [htgt]
          · rw [if_neg h] at htgt
            right
            refine ⟨htgt.symm, q, rfl, ?_⟩
            simpa using h
        · have hcs : c ≠ s := fun e => hns z (e ▸ hz)
          have hcp : upd T.par s (some p) c = T.par c := by simp [upd, hcs]
          rw [hcp]
          split
          · rename_i hz'
            rcases I.place z c hz with h | ⟨-, q', h, h'⟩
            · exact absurd (hz'.1 ▸ h) hz'.2
            · by_cases e : q' = s
              · left; rw [h, e]
              · right
                exact ⟨rfl, q', h, by simp [upd, e, h']⟩
          · rename_i hz'
            rcases I.place z c hz with h | ⟨e, q', h, h'⟩
            · exact Or.inl h
            · left
              by_cases hh : T.par c = some z
              · exact hh
              · exact absurd ⟨e, e ▸ hh⟩ hz'
    · obtain ⟨h1, h2, m⟩ := I.insert_moved as hs hc
      generalize T.collect s p as = T' at h1 h2 m ⊢
      generalize htgt : (T.addNew s p as).target p = tgt at m
      have htgt' : tgt = if (upd T.par s (some p) p).isSome then p else T.root := by rw [← htgt]; rfl
      have hps : (T'.par s) = some p := by rw [h2]; simp
      have htd : (T'.par tgt).isSome = true := by
        rw [htgt', h2]
        split
        · rename_i h; exact h
        · exact hmono _ I.root_in
      refine ⟨by rw [h1, h2]; exact hmono _ I.root_in, ?_, ?_, ⟨m.nodup, m.uniq I.wf.uniq, ?_⟩, ?_, ?_⟩
      · intro y c h
        rcases (m.mem y c).1 h with ⟨rfl, -⟩ | ⟨-, z, hz, -⟩
        · rw [hps]; rfl
        · rw [h2]; exact hmono _ (I.dom_c z c hz)
      · intro y c h
        rcases (m.mem y c).1 h with ⟨-, rfl⟩ | ⟨-, z, hz, rfl⟩
        · exact htd
        · split
          · rw [hps]; rfl
          · rw [h2]; exact hmono _ (I.dom_p z c hz)
      · intro y h
        rw [h1] at h
        rcases (m.mem y T.root).1 h with ⟨h, -⟩ | ⟨-, z, hz, -⟩
        · exact hrs h
        · exact I.wf.rootless z hz
      · intro c hcd hne
        rw [h1] at hne
        by_cases e : c = s
        · exact ⟨tgt, (m.mem _ _).2 (Or.inl ⟨e, rfl⟩)⟩
        · rw [h2] at hcd
          simp only [upd, e, if_false] at hcd
          obtain ⟨z, hz⟩ := I.has c hcd hne
          exact ⟨_, (m.mem _ _).2 (Or.inr ⟨e, z, hz, rfl⟩)⟩
      · intro y c h
        rw [h1, h2]
        rcases (m.mem y c).1 h with ⟨rfl, rfl⟩ | ⟨hne, z, hz, rfl⟩
        · rw [upd_self]
          by_cases h : (upd T.par c (some p) p).isSome = true
          · rw [if_pos h] at htgt'
            left; rw [htgt']
          · rw [if_neg h] at htgt'
            right
            refine ⟨htgt', p, rfl, ?_⟩
            simpa using h
        · have hcp : upd T.par s (some p) c = T.par c := by simp [upd, hne]
          rw [hcp]
          split
          · rename_i hz'
            exact Or.inl hz'.2
          · rename_i hz'
            rcases I.place z c hz with h | ⟨e, q', h, h'⟩
            · exact Or.inl h
            · right
              refine ⟨e, q', h, ?_⟩
              have : q' ≠ s := fun e' => hz' ⟨e, e' ▸ h⟩
              simp [upd, this, h']

end Appdash
