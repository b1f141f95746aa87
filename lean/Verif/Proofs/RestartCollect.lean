import Verif.Proofs.RestartPlace

/-! # What `Collect` of a new span does to the child lists -/

namespace Appdash

open Spec

/-- Only child lists change, and they become `sub'`. -/
structure SubEff (ms ms' : MemStore) (sub' : Addr → List Addr) : Prop where
  next : ms'.next = ms.next
  span : ms'.span = ms.span
  id : ∀ x, (ms'.heap x).id = (ms.heap x).id
  anns : ∀ x, (ms'.heap x).anns = (ms.heap x).anns
  sub : ∀ x, (ms'.heap x).sub = sub' x

def subsOf (ms : MemStore) : Addr → List Addr := fun x => (ms.heap x).sub

theorem SubEff.subs {ms ms' : MemStore} {sub' : Addr → List Addr} (e : SubEff ms ms' sub') : subsOf ms' = sub' :=
  funext e.sub

theorem SubEff.trans {a b c : MemStore} {f g : Addr → List Addr} (h1 : SubEff a b f) (h2 : SubEff b c g) :
    SubEff a c g :=
  ⟨h2.next.trans h1.next, h2.span.trans h1.span, fun x => (h2.id x).trans (h1.id x),
    fun x => (h2.anns x).trans (h1.anns x), h2.sub⟩

theorem move_eff (ms : MemStore) {d s : Addr} (hne : d ≠ s) (f g : Addr → Bool) (hg : ∀ x, g x = !f x) :
    SubEff ms ((ms.appendSub d ((ms.heap s).sub.filter f)).setSub s ((ms.heap s).sub.filter g))
      (subMove (subsOf ms) f d s) ∧
    ((ms.appendSub d ((ms.heap s).sub.filter f)).setSub s ((ms.heap s).sub.filter g)).trace = ms.trace := by
  have hg' : g = fun x => !f x := funext hg
  refine ⟨⟨rfl, rfl, ?_, ?_, ?_⟩, rfl⟩
  · intro x
    simp only [MemStore.appendSub, MemStore.setSub, heapUpd]
    split
    · split <;> rename_i h1 h2
      · exact absurd h2.symm hne
      · rw [h1]
    · split
      · rename_i h; rw [h]
      · rfl
  · intro x
    simp only [MemStore.appendSub, MemStore.setSub, heapUpd]
    split
    · split <;> rename_i h1 h2
      · exact absurd h2.symm hne
      · rw [h1]
    · split
      · rename_i h; rw [h]
      · rfl
  · intro x
    simp only [MemStore.appendSub, MemStore.setSub, heapUpd, subMove, subsOf]
    split
    · rw [hg']
    · split <;> rfl

theorem appendSub_id (ms : MemStore) (p : Addr) (cs : List Addr) (x : Addr) :
    ((ms.appendSub p cs).heap x).id = (ms.heap x).id := by
  simp only [MemStore.appendSub, heapUpd]
  split
  · rename_i h; rw [h]
  · rfl

theorem reattach_eff (ms : MemStore) {d s : Addr} (hne : d ≠ s) :
    ∃ ms', ms.reattachChildren d s = some ms' ∧ ms'.trace = ms.trace ∧
      SubEff ms ms' (subMove (subsOf ms) (fun c => decide ((ms.heap c).id.parent = (ms.heap d).id.span)) d s) := by
  unfold MemStore.reattachChildren
  rw [if_neg hne]
  exact ⟨_, rfl, rfl, (move_eff ms hne _ _ (fun x => by rw [appendSub_id]; simp)).1⟩

theorem moveTemp_eff (ms : MemStore) {d s : Addr} (hne : d ≠ s) :
    (ms.moveTempChildren d s).trace = ms.trace ∧
      SubEff ms (ms.moveTempChildren d s)
        (subMove (subsOf ms) (fun c => decide ((ms.heap c).id.parent ≠ (ms.heap s).id.span)) d s) := by
  unfold MemStore.moveTempChildren
  exact ⟨rfl, (move_eff ms hne _ _ (fun x => by rw [appendSub_id]; simp)).1⟩

theorem insert_eff (ms : MemStore) (root x : Addr) :
    (ms.insert root x).trace = ms.trace ∧
      SubEff ms (ms.insert root x) (subIns (subsOf ms) x
        ((ms.spanGet (ms.heap x).id.trace (ms.heap x).id.parent).getD root)) := by
  have key : ∀ q, (ms.appendSub q [x]).trace = ms.trace ∧ SubEff ms (ms.appendSub q [x]) (subIns (subsOf ms) x q) := by
    intro q
    refine ⟨rfl, rfl, rfl, ?_, ?_, ?_⟩
    all_goals
      intro y
      simp only [MemStore.appendSub, heapUpd, subIns, subsOf]
      split
      · rename_i h; simp [h]
      · rfl
  unfold MemStore.insert
  cases ms.spanGet (ms.heap x).id.trace (ms.heap x).id.parent with
  | none => exact key root
  | some p => exact key p

/-- What `Collect` of a new span does in a trace with root `r`. -/
theorem collect_new_eff {ms : MemStore} {id : SpanID} (as : List Annotation) {sm : AMap ID Addr} {r : Addr}
    (hsm : ms.span.get id.trace = some sm) (hnew : sm.get id.span = none) (hr : ms.trace.get id.trace = some r)
    (hrn : r ≠ ms.next) (hrt : (ms.heap r).id.trace = id.trace) (ms' : MemStore) (hc : ms.collect id as = some ms')
    (h1 : Addr → Node) (hh1 : h1 = heapUpd ms.heap ms.next ⟨id, as, []⟩)
    (lk' : ID → Option Addr) (hlk' : lk' = fun i => if i = id.span then some ms.next else sm.get i) :
    ms'.next = ms.next + 1 ∧ ms'.span.get id.trace = some (sm.set id.span ms.next) ∧
    (∀ x, (ms'.heap x).id = (h1 x).id) ∧ (∀ x, (ms'.heap x).anns = (h1 x).anns) ∧
    if id.parent = 0 ∨ (ms.heap r).id.parent = id.span then
      ms'.trace.get id.trace = some ms.next ∧
      ∀ x, (ms'.heap x).sub = subMove (subIns (subMove (fun x => (h1 x).sub)
          (fun c => decide ((h1 c).id.parent = id.span)) ms.next r) r ((lk' (h1 r).id.parent).getD ms.next))
        (fun c => decide ((h1 c).id.parent ≠ (h1 r).id.span)) ms.next r x
    else
      ms'.trace.get id.trace = some r ∧
      ∀ x, (ms'.heap x).sub = subMove (subIns (fun x => (h1 x).sub) ms.next ((lk' id.parent).getD r))
        (fun c => decide ((h1 c).id.parent = id.span)) ms.next r x := by
  have hne : ms.next ≠ r := fun e => hrn e.symm
  have hsn : h1 ms.next = ⟨id, as, []⟩ := by rw [hh1]; simp [heapUpd]
  have hrh : h1 r = ms.heap r := by rw [hh1]; simp [heapUpd, hrn]
  let ms1 : MemStore := ⟨h1, ms.next + 1, ms.trace, ms.span.set id.trace (sm.set id.span ms.next)⟩
  have hcol : ms1.attach id ms.next = some ms' := by
    rw [← hc]
    simp only [MemStore.collect, hsm, Option.getD_some, hnew, ms1, hh1]
  have hget : ∀ (m : MemStore) i, m.span = ms1.span → m.spanGet id.trace i = lk' i := by
    intro m i e
    unfold MemStore.spanGet
    rw [e]
    simp only [ms1, AMap.get_set_self, hlk']
    rw [AMap.get_set]
    by_cases h : id.span = i
    · simp [h]
    · have h' : ¬ i = id.span := fun e => h e.symm
      simp [h, h']
  unfold MemStore.attach at hcol
  have hr1 : ms1.trace.get id.trace = some r := hr
  rw [hr1] at hcol
  simp only [MemStore.fixRoot] at hcol
  have hroot : id.isRoot = true ↔ id.parent = 0 := by simp [SpanID.isRoot]
  by_cases hcase : id.parent = 0 ∨ (ms.heap r).id.parent = id.span
  · rw [if_pos hcase]
    have hcond : ms.next ≠ r ∧ (id.isRoot = true ∨ (ms1.heap r).id.parent = id.span) := by
      refine ⟨hne, ?_⟩
      rw [hroot]
      show _ ∨ (h1 r).id.parent = _
      rw [hrh]
      exact hcase
    rw [if_pos hcond] at hcol
    obtain ⟨ms2, e2, t2, E2⟩ := reattach_eff { ms1 with trace := ms1.trace.set id.trace ms.next } hne
    rw [e2] at hcol
    obtain ⟨t3, E3⟩ := insert_eff ms2 ms.next r
    obtain ⟨t4, E4⟩ := moveTemp_eff (ms2.insert ms.next r) hne
    have E := (E2.trans E3).trans E4
    simp only [ne_eq, not_true_eq_false, and_false, if_false] at hcol
    injection hcol with hcol
    subst hcol
    refine ⟨E.next, ?_, E.id, E.anns, ?_, ?_⟩
    · rw [E.span]; exact AMap.get_set_self _ _ _
    · rw [t4, t3, t2]; exact AMap.get_set_self _ _ _
    · intro x
      rw [E.sub, E3.subs, E2.subs]
      have i2 : ∀ c, (ms2.heap c).id = (h1 c).id := E2.id
      have i3 : ∀ c, ((ms2.insert ms.next r).heap c).id = (h1 c).id := (E2.trans E3).id
      simp only [i2, i3]
      rw [show (h1 r).id.trace = id.trace by rw [hrh]; exact hrt]
      rw [hget ms2 _ E2.span]
      show subMove (subIns (subMove (fun x => (h1 x).sub) (fun c => decide ((h1 c).id.parent = (h1 ms.next).id.span)) _ _) _ _) _ _ _ _ = _
      rw [hsn]
  · rw [if_neg hcase]
    have hcond : ¬ (ms.next ≠ r ∧ (id.isRoot = true ∨ (ms1.heap r).id.parent = id.span)) := by
      rintro ⟨-, h⟩
      rw [hroot] at h
      apply hcase
      rw [← hrh]
      exact h
    rw [if_neg hcond] at hcol
    have hcond2 : id.isRoot = false ∧ ms.next ≠ r := by
      refine ⟨?_, hne⟩
      cases h : id.isRoot with
      | false => rfl
      | true => exact absurd (Or.inl (hroot.1 h)) hcase
    simp only [if_pos hcond2, if_pos hne] at hcol
    obtain ⟨t2, E2⟩ := insert_eff ms1 r ms.next
    obtain ⟨ms3, e3, t3, E3⟩ := reattach_eff (ms1.insert r ms.next) hne
    rw [e3] at hcol
    injection hcol with hcol
    subst hcol
    have E := E2.trans E3
    refine ⟨E.next, ?_, E.id, E.anns, ?_, ?_⟩
    · rw [E.span]; exact AMap.get_set_self _ _ _
    · rw [t3, t2]; exact hr
    · intro x
      rw [E.sub, E2.subs]
      have i2 : ∀ c, ((ms1.insert r ms.next).heap c).id = (h1 c).id := E2.id
      simp only [i2]
      have hh : ms1.heap ms.next = ⟨id, as, []⟩ := hsn
      rw [hh, hsn]
      simp only
      rw [hget ms1 _ rfl]
      rfl

end Appdash
