import Verif.Proofs.StoreInv
import Mathlib.Data.List.Induction

/-! # The state of a store as a function of the history of calls -/

namespace Appdash

open Spec

namespace Spec

theorem declaredParent_append (L : List Entry) (e : Entry) (s : ID) :
    declaredParent (L ++ [e]) s =
      match declaredParent L s with
      | some p => some p
      | none => if e.1.span = s then some e.1.parent else none := by
  induction L with
  | nil => simp [declaredParent]
  | cons x L ih =>
    simp only [List.cons_append, declaredParent]
    split
    · rfl
    · exact ih

theorem annotationsOf_append (L : List Entry) (e : Entry) (s : ID) :
    annotationsOf (L ++ [e]) s = annotationsOf L s ++ (if e.1.span = s then e.2 else []) := by
  induction L with
  | nil => simp [annotationsOf]
  | cons x L ih =>
    simp only [List.cons_append, annotationsOf, ih, List.append_assoc]

theorem collected_iff (L : List Entry) (s : ID) : Collected L s ↔ (declaredParent L s).isSome = true := by
  induction L with
  | nil => simp [Collected, declaredParent]
  | cons x L ih =>
    simp only [Collected, declaredParent, List.exists_mem_cons_iff] at ih ⊢
    by_cases h : x.1.span = s
    · simp [h]
    · simp only [h, false_or, if_false]
      exact ih

theorem not_collected_iff (L : List Entry) (s : ID) : ¬ Collected L s ↔ declaredParent L s = none := by
  rw [collected_iff]; simp

theorem collected_reverse (L : List Entry) (s : ID) : Collected L.reverse s ↔ Collected L s := by
  simp [Collected]

theorem lastRoot_append (L : List Entry) (e : Entry) :
    lastRoot (L ++ [e]) =
      if Collected L e.1.span then lastRoot L else if e.1.parent = 0 then some e.1.span else lastRoot L := by
  unfold lastRoot
  rw [List.reverse_append]
  simp only [List.reverse_cons, List.reverse_nil, List.nil_append, List.cons_append, lastRootRev,
    collected_reverse]

theorem lastRoot_parent (L : List Entry) (r : ID) (h : lastRoot L = some r) : declaredParent L r = some 0 := by
  induction L using List.reverseRecOn with
  | nil => simp [lastRoot, lastRootRev] at h
  | append_singleton L e ih =>
    rw [lastRoot_append] at h
    rw [declaredParent_append]
    split at h
    · rw [ih h]
    · rename_i hc
      split at h
      · rename_i h0
        injection h with h
        subst h
        rw [(not_collected_iff L _).1 hc]
        simp [h0]
      · rw [ih h]

theorem annotationsOf_not_collected (L : List Entry) (s : ID) (h : ¬ Collected L s) : annotationsOf L s = [] := by
  induction L with
  | nil => rfl
  | cons x L ih =>
    simp only [Collected, List.exists_mem_cons_iff, not_or] at h
    simp only [annotationsOf, h.1, if_false, List.nil_append]
    exact ih h.2

theorem lastRoot_of_parentless {L : List Entry} (h : ∃ r, declaredParent L r = some 0) :
    ∃ r, lastRoot L = some r := by
  induction L using List.reverseRecOn with
  | nil => obtain ⟨r, h⟩ := h; simp [declaredParent] at h
  | append_singleton L e ih =>
    obtain ⟨r, h⟩ := h
    rw [lastRoot_append]
    rw [declaredParent_append] at h
    cases hd : declaredParent L r with
    | some p =>
      rw [hd] at h
      obtain ⟨q, hq⟩ := ih ⟨r, by rw [hd]; exact h⟩
      repeat' split
      all_goals exact ⟨_, by first | exact hq | rfl⟩
    | none =>
      rw [hd] at h
      simp only at h
      split at h
      · rename_i hs
        injection h with h
        have hc : ¬ Collected L e.1.span := by rw [not_collected_iff, hs]; exact hd
        rw [if_neg hc, if_pos h]
        exact ⟨_, rfl⟩
      · cases h

theorem live_collects (t : ID) (L : List Entry) (h : ∀ e ∈ L, e.1.trace = t) :
    live t (L.map fun e => .collect e.1 e.2) = L := by
  have : ∀ (L M : List Entry), (∀ e ∈ L, e.1.trace = t) →
      (L.map fun e => StoreOp.collect e.1 e.2).foldl (liveStep t) M = M ++ L := by
    intro L
    induction L with
    | nil => intro M _; simp
    | cons e L ih =>
      intro M h
      simp only [List.map_cons, List.foldl_cons, liveStep, h e (by simp), if_true]
      rw [ih _ (fun x hx => h x (by simp [hx]))]
      simp
  simpa [live] using this L [] h

theorem declaredParent_of_consistent (L : List Entry)
    (hcons : ∀ e ∈ L, ∀ e' ∈ L, e.1.span = e'.1.span → e.1.parent = e'.1.parent) (s p : ID) :
    declaredParent L s = some p ↔ ∃ e ∈ L, e.1.span = s ∧ e.1.parent = p := by
  induction L with
  | nil => simp [declaredParent]
  | cons x L ih =>
    have ih := ih (fun e he e' he' => hcons e (by simp [he]) e' (by simp [he']))
    simp only [declaredParent]
    by_cases hx : x.1.span = s
    · simp only [hx, if_true, Option.some.injEq]
      constructor
      · rintro rfl; exact ⟨x, by simp, hx, rfl⟩
      · rintro ⟨e, he, h1, rfl⟩
        exact hcons x (by simp) e he (by rw [hx, h1])
    · simp only [hx, if_false, ih]
      constructor
      · rintro ⟨e, he, h⟩; exact ⟨e, by simp [he], h⟩
      · rintro ⟨e, he, h⟩
        rcases List.mem_cons.1 he with rfl | he
        · exact absurd h.1 hx
        · exact ⟨e, he, h⟩

theorem annotationsOf_perm {L L' : List Entry} (h : L.Perm L') (s : ID) :
    (annotationsOf L s).Perm (annotationsOf L' s) := by
  induction h with
  | nil => exact .nil
  | cons x _ ih => exact ih.append_left _
  | swap x y l =>
    simp only [annotationsOf]
    rw [← List.append_assoc, ← List.append_assoc]
    exact (List.perm_append_comm).append_right _
  | trans _ _ ih1 ih2 => exact ih1.trans ih2

end Spec

/-- The state of one trace agrees with the relevant calls `L`. -/
def HRep : Option ATrace → List Entry → Prop
  | none, L => L = []
  | some T, L => L ≠ [] ∧ (∀ s, T.par s = declaredParent L s) ∧ (∀ s, T.anns s = annotationsOf L s) ∧ AInv T ∧
      ((∀ e ∈ L, e.1.span ≠ 0) → ∀ r, lastRoot L = some r → T.root = r)

theorem collect_par (T : ATrace) (I : AInv T) (s p : ID) (as : List Annotation) :
    (T.collect s p as).par = if (T.par s).isSome then T.par else upd T.par s (some p) := by
  cases hs : T.par s with
  | some q => simp [ATrace.collect, hs]
  | none =>
    by_cases hc : p = 0 ∨ T.par T.root = some s
    · simpa using (I.newRoot_moved as hs hc).2.1
    · simpa using (I.insert_moved as hs hc).2.1

theorem collect_anns (T : ATrace) (s p : ID) (as : List Annotation) :
    (T.collect s p as).anns = if (T.par s).isSome then upd T.anns s (T.anns s ++ as) else upd T.anns s as := by
  cases hs : T.par s with
  | some q => simp [ATrace.collect, hs]
  | none =>
    by_cases hc : p = 0 ∨ T.par T.root = some s
    · simp [ATrace.collect, hs, hc, ATrace.addNew]
    · simp [ATrace.collect, hs, hc, ATrace.addNew]

theorem collect_root (T : ATrace) (I : AInv T) (s p : ID) (as : List Annotation) :
    (T.collect s p as).root =
      if T.par s = none ∧ (p = 0 ∨ T.par T.root = some s) then s else T.root := by
  cases hs : T.par s with
  | some q => simp [ATrace.collect, hs]
  | none =>
    by_cases hc : p = 0 ∨ T.par T.root = some s
    · simpa [hc] using (I.newRoot_moved as hs hc).1
    · simpa [hc] using (I.insert_moved as hs hc).1

theorem HRep.fresh (id : SpanID) (as : List Annotation) :
    HRep (some (ATrace.fresh id.span id.parent as)) [(id, as)] := by
  refine ⟨by simp, ?_, ?_, AInv.fresh _ _ _, ?_⟩
  · intro s
    simp only [ATrace.fresh, upd, declaredParent]
    by_cases h : s = id.span
    · simp [h]
    · have h' : ¬ id.span = s := fun e => h e.symm
      simp [h, h']
  · intro s
    simp only [ATrace.fresh, upd, annotationsOf]
    by_cases h : s = id.span
    · simp [h]
    · have h' : ¬ id.span = s := fun e => h e.symm
      simp [h, h']
  · intro _ r hr
    simp only [lastRoot, lastRootRev, List.reverse_cons, List.reverse_nil, List.nil_append] at hr
    have : ¬ Collected [] id.span := by simp [Collected]
    simp only [this, if_false] at hr
    split at hr
    · injection hr
    · simp at hr

theorem HRep.collect {T : ATrace} {L : List Entry} (H : HRep (some T) L) (id : SpanID) (as : List Annotation) :
    HRep (some (T.collect id.span id.parent as)) (L ++ [(id, as)]) := by
  obtain ⟨h1, h2, h3, I, h4⟩ := H
  refine ⟨by simp, ?_, ?_, I.collect _ _ _, ?_⟩
  · intro s
    rw [collect_par T I, declaredParent_append, ← h2]
    cases hs : T.par id.span with
    | some q =>
      simp only [Option.isSome_some, if_true]
      cases hs' : T.par s with
      | some _ => rfl
      | none =>
        have : id.span ≠ s := by rintro rfl; rw [hs] at hs'; cases hs'
        simp [this]
    | none =>
      simp only [Option.isSome_none, Bool.false_eq_true, if_false, upd]
      by_cases e : s = id.span
      · subst e; simp [hs]
      · have e' : ¬ id.span = s := fun e' => e e'.symm
        simp only [e, if_false, e']
        cases T.par s <;> rfl
  · intro s
    rw [collect_anns T, annotationsOf_append, ← h3]
    by_cases e : s = id.span
    · subst e
      cases hs : T.par id.span with
      | some q => simp
      | none =>
        have : T.anns id.span = [] := by
          rw [h3]
          apply annotationsOf_not_collected
          rw [not_collected_iff, ← h2, hs]
        simp [this]
    · have e' : ¬ id.span = s := fun e' => e e'.symm
      cases T.par id.span <;> simp [upd, e, e']
  · intro hz r hr
    have hz' : ∀ e ∈ L, e.1.span ≠ 0 := fun e he => hz e (by simp [he])
    have hz0 : id.span ≠ 0 := hz (id, as) (by simp)
    rw [lastRoot_append] at hr
    rw [collect_root T I]
    simp only at hr
    by_cases hc : Collected L id.span
    · rw [if_pos hc] at hr
      have : ¬ T.par id.span = none := by rw [h2, ← not_collected_iff]; exact fun h => h hc
      simp only [this, false_and, if_false]
      exact h4 hz' r hr
    · rw [if_neg hc] at hr
      have hn : T.par id.span = none := by rw [h2, ← not_collected_iff]; exact hc
      by_cases hp : id.parent = 0
      · rw [if_pos hp] at hr
        injection hr with hr
        rw [if_pos ⟨hn, Or.inl hp⟩]; exact hr
      · rw [if_neg hp] at hr
        have hroot := h4 hz' r hr
        have : T.par T.root = some 0 := by rw [h2, hroot]; exact lastRoot_parent L r hr
        have hne : ¬ (0 : ID) = id.span := fun e => hz0 e.symm
        rw [if_neg, hroot]
        rintro ⟨-, h | h⟩
        · exact hp h
        · rw [this] at h
          injection h with h
          exact hne h

/-- Every trace of the store agrees with the calls made. -/
def HSim (A : AStore) (f : ID → List Entry) : Prop := ∀ t, HRep (A t) (f t)

theorem HSim.step {A : AStore} {f : ID → List Entry} (H : HSim A f) (op : StoreOp) :
    HSim (A.step op) (fun t => liveStep t (f t) op) := by
  intro t
  cases op with
  | collect id as =>
    simp only [AStore.step, AStore.collect, upd, liveStep]
    by_cases e : t = id.trace
    · subst e
      simp only [if_true]
      have := H id.trace
      cases hA : A id.trace with
      | none =>
        rw [hA] at this
        have h0 : f id.trace = [] := this
        rw [h0]
        exact HRep.fresh id as
      | some T =>
        rw [hA] at this
        exact this.collect id as
    · have e' : ¬ id.trace = t := fun e' => e e'.symm
      simp only [e, if_false, e']
      exact H t
  | delete ids =>
    simp only [AStore.step, AStore.delete, liveStep]
    split
    · rfl
    · exact H t

theorem HSim.run {A : AStore} {f : ID → List Entry} (H : HSim A f) (ops : List StoreOp) :
    HSim (A.run ops) (fun t => ops.foldl (liveStep t) (f t)) := by
  induction ops generalizing A f with
  | nil => exact H
  | cons op ops ih => exact ih (H.step op)

/-! ## What a reader sees -/

/-- The span value shown for `s`. -/
def ATrace.label (T : ATrace) (t s : ID) : Span :=
  { id := ⟨t, s, (T.par s).getD 0⟩, annotations := T.anns s }

theorem unfoldNode_eq {h : Addr → Node} {n : Nat} {t : ID} {sm : AMap ID Addr} {T : ATrace} (R : Rep h n t sm T)
    (fuel : Nat) (s : ID) (hs : (T.par s).isSome = true) :
    unfoldNode h fuel (addrOf sm s) = Forest.unfold (T.label t) T.sub fuel s := by
  induction fuel generalizing s with
  | zero => rfl
  | succ fuel ih =>
    have hg := R.get_of_dom hs
    obtain ⟨p, hp, hid⟩ := R.id _ _ hg
    have hsub := R.sub _ _ hg
    have hm : ((T.sub s).map (addrOf sm)).mapM (unfoldNode h fuel) =
        (T.sub s).mapM (Forest.unfold (T.label t) T.sub fuel) := by
      have hcl : ∀ c ∈ T.sub s, (T.par c).isSome = true := fun c hc => R.closed s c hc
      generalize T.sub s = cs at hcl
      induction cs with
      | nil => rfl
      | cons c cs ih2 =>
        simp only [List.map_cons, List.mapM_cons]
        rw [ih c (hcl c (by simp)), ih2 (fun c hc => hcl c (by simp [hc]))]
    simp only [unfoldNode, Forest.unfold]
    rw [hsub, hm]
    simp only [hid, R.anns _ _ hg, ATrace.label, hp, Option.getD_some]
    generalize (T.sub s).mapM (Forest.unfold (T.label t) T.sub fuel) = o
    cases o <;> rfl

theorem AInv.steps_dom {T : ATrace} (I : AInv T) {n : Nat} {x : ID} (h : Forest.Steps T.sub n T.root x) :
    (T.par x).isSome = true := by
  cases n with
  | zero => cases h; exact I.root_in
  | succ n =>
    obtain ⟨p, -, hx⟩ := h
    exact I.dom_c p x hx

/-- The trace is always a finite tree, reached within `next` steps. -/
theorem view_found {ms : MemStore} {t : ID} {T : ATrace} (S : SimT ms t (some T)) (I : AInv T) :
    ∃ tr, ms.view t = .found tr ∧ Forest.unfold (T.label t) T.sub ms.next T.root = some tr := by
  obtain ⟨sm, ra, h1, h2, h3, R⟩ := S
  have hd : ∀ n x, Forest.Steps T.sub n T.root x → n < ms.next := by
    intro n x h
    have := I.wf.depth_lt ((List.range ms.next).map fun a => (ms.heap a).id.span) ?_ h
    · simpa using this
    · intro n x h
      have hx := I.steps_dom h
      have hg := R.get_of_dom hx
      obtain ⟨p, -, hid⟩ := R.id _ _ hg
      rw [List.mem_map]
      exact ⟨addrOf sm x, List.mem_range.2 (R.lt _ _ hg), by rw [hid]⟩
  obtain ⟨tr, htr⟩ := Forest.unfold_isSome (T.label t) ms.next T.root hd
  refine ⟨tr, ?_, htr⟩
  unfold MemStore.view MemStore.tracePtr
  have := unfoldNode_eq R ms.next T.root I.root_in
  rw [htr] at this
  have h2' : ms.trace.get t = some (addrOf sm T.root) := by
    rw [Rep.addr_eq h3]; exact h2
  rw [h2']
  simp only [this]

end Appdash
