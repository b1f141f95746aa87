import Verif.Proofs.RestartTree

/-! # The state of a trace right after `ReadFrom` -/

namespace Appdash

open Spec

theorem unfoldNode_forest (h : Addr → Node) (fuel : Nat) (a : Addr) :
    unfoldNode h fuel a = Forest.unfold (fun a => ⟨(h a).id, (h a).anns⟩) (fun a => (h a).sub) fuel a := by
  induction fuel generalizing a with
  | zero => rfl
  | succ fuel ih =>
    have : unfoldNode h fuel = Forest.unfold (fun a => ⟨(h a).id, (h a).anns⟩) (fun a => (h a).sub) fuel := funext ih
    simp only [unfoldNode, Forest.unfold, this]
    rfl

theorem HoldsList.mem {h : Addr → Node} {lo hi : Nat} : ∀ {as : List Addr} {ts : List Tree}, HoldsList h lo hi as ts →
    ∀ a ∈ as, ∃ t, Holds h lo hi a t
  | [], _, _, a, ha => by cases ha
  | _ :: _, [], H, _, _ => by simp [HoldsList] at H
  | b :: as, t :: ts, H, a, ha => by
    simp only [HoldsList] at H
    rcases List.mem_cons.1 ha with rfl | ha
    · exact ⟨t, H.1⟩
    · exact HoldsList.mem H.2 a ha

theorem Holds.reach {h : Addr → Node} {lo hi : Nat} {n : Nat} : ∀ {a x : Addr} {t : Tree}, Holds h lo hi a t →
    Forest.Steps (fun a => (h a).sub) n a x → lo ≤ x ∧ x < hi := by
  induction n with
  | zero => intro a x t H hs; cases hs; exact H.bounds
  | succ n ih =>
    intro a x t H hs
    obtain ⟨c, hc, hs⟩ := hs.head
    cases t
    simp only [Holds] at H
    obtain ⟨t', H'⟩ := HoldsList.mem H.2.2.2.2 c hc
    exact ih H' hs

/-! ## The decoded tree beside the tree that was written -/

/-- `x` in the first graph unfolds to what gob makes of what `y` in the second unfolds to. -/
def GobRel {α β : Type} (l1 : α → Span) (s1 : α → List α) (l2 : β → Span) (s2 : β → List β) (x : α) (y : β) : Prop :=
  ∃ f f' u, Forest.unfold l1 s1 f x = some (gobTree u) ∧ Forest.unfold l2 s2 f' y = some u

theorem GobRel.list {α β : Type} {l1 : α → Span} {s1 : α → List α} {l2 : β → Span} {s2 : β → List β} {f f' : Nat} :
    ∀ (xs : List α) (ys : List β) (us : List Tree), xs.mapM (Forest.unfold l1 s1 f) = some (gobTrees us) →
      ys.mapM (Forest.unfold l2 s2 f') = some us → List.Forall₂ (GobRel l1 s1 l2 s2) xs ys
  | xs, [], us, h1, h2 => by
    have := Forest.mapM_nil_some h2
    subst this
    cases xs with
    | nil => exact .nil
    | cons x xs =>
      obtain ⟨y, ys, -, -, e⟩ := Forest.mapM_cons_some h1
      simp [gobTrees] at e
  | xs, y :: ys, us, h1, h2 => by
    obtain ⟨u, us', e1, e2, rfl⟩ := Forest.mapM_cons_some h2
    cases xs with
    | nil =>
      have := Forest.mapM_nil_some h1
      simp [gobTrees] at this
    | cons x xs =>
      obtain ⟨v, vs, e3, e4, e5⟩ := Forest.mapM_cons_some h1
      simp only [gobTrees, List.cons.injEq] at e5
      rw [← e5.1] at e3
      rw [← e5.2] at e4
      exact .cons ⟨f, f', u, e3, e1⟩ (GobRel.list xs ys us' e4 e2)

theorem GobRel.node {α β : Type} {l1 : α → Span} {s1 : α → List α} {l2 : β → Span} {s2 : β → List β} {x : α} {y : β}
    (h : GobRel l1 s1 l2 s2 x y) :
    l1 x = { l2 y with annotations := (l2 y).annotations.map gobAnnotation } ∧
      List.Forall₂ (GobRel l1 s1 l2 s2) (s1 x) (s2 y) := by
  obtain ⟨f, f', u, h1, h2⟩ := h
  cases f with
  | zero => simp [Forest.unfold] at h1
  | succ f =>
    cases f' with
    | zero => simp [Forest.unfold] at h2
    | succ f' =>
      simp only [Forest.unfold] at h1 h2
      split at h2
      · cases h2
      · rename_i us hus
        injection h2 with h2
        subst h2
        simp only [gobTree] at h1
        split at h1
        · cases h1
        · rename_i vs hvs
          injection h1 with h1
          injection h1 with e1 e2
          subst e2
          exact ⟨e1, GobRel.list _ _ _ hvs hus⟩

theorem forall₂_mem_left {α β : Type} {R : α → β → Prop} {xs : List α} {ys : List β} (h : List.Forall₂ R xs ys) :
    ∀ x ∈ xs, ∃ y ∈ ys, R x y := by
  induction h with
  | nil => intro x hx; cases hx
  | cons h _ ih =>
    intro x hx
    rcases List.mem_cons.1 hx with rfl | hx
    · exact ⟨_, by simp, h⟩
    · obtain ⟨y, hy, hr⟩ := ih x hx
      exact ⟨y, by simp [hy], hr⟩

theorem forall₂_mem_right {α β : Type} {R : α → β → Prop} {xs : List α} {ys : List β} (h : List.Forall₂ R xs ys) :
    ∀ y ∈ ys, ∃ x ∈ xs, R x y := by
  induction h with
  | nil => intro x hx; cases hx
  | cons h _ ih =>
    intro x hx
    rcases List.mem_cons.1 hx with rfl | hx
    · exact ⟨_, by simp, h⟩
    · obtain ⟨y, hy, hr⟩ := ih x hx
      exact ⟨y, by simp [hy], hr⟩

theorem forall₂_mapped {α β γ : Type} {R : α → β → Prop} {f : α → γ} {g : β → γ} (hR : ∀ x y, R x y → f x = g y)
    {xs : List α} {ys : List β} (h : List.Forall₂ R xs ys) : xs.map f = ys.map g := by
  induction h with
  | nil => rfl
  | cons h _ ih => simp [hR _ _ h, ih]

theorem GobRel.down {α β : Type} {l1 : α → Span} {s1 : α → List α} {l2 : β → Span} {s2 : β → List β} {n : Nat} {a x : α}
    {b : β} (h : GobRel l1 s1 l2 s2 a b) (hs : Forest.Steps s1 n a x) :
    ∃ y, Forest.Steps s2 n b y ∧ GobRel l1 s1 l2 s2 x y := by
  induction n generalizing x with
  | zero => cases hs; exact ⟨b, rfl, h⟩
  | succ n ih =>
    obtain ⟨p, hp, hx⟩ := hs
    obtain ⟨q, hq, hr⟩ := ih hp
    obtain ⟨y, hy, hr'⟩ := forall₂_mem_left hr.node.2 x hx
    exact ⟨y, ⟨q, hq, hy⟩, hr'⟩

theorem GobRel.up {α β : Type} {l1 : α → Span} {s1 : α → List α} {l2 : β → Span} {s2 : β → List β} {n : Nat} {a : α}
    {b y : β} (h : GobRel l1 s1 l2 s2 a b) (hs : Forest.Steps s2 n b y) :
    ∃ x, Forest.Steps s1 n a x ∧ GobRel l1 s1 l2 s2 x y := by
  induction n generalizing y with
  | zero => cases hs; exact ⟨a, rfl, h⟩
  | succ n ih =>
    obtain ⟨p, hp, hx⟩ := hs
    obtain ⟨q, hq, hr⟩ := ih hp
    obtain ⟨y, hy, hr'⟩ := forall₂_mem_right hr.node.2 _ hx
    exact ⟨y, ⟨q, hq, hy⟩, hr'⟩

/-! ## The invariant holds after `ReadFrom` -/

/-- Everything needed about the store after `ReadFrom`. -/
theorem readFrom_parts {ms : MemStore} {d : GobData} (hw : ms.Writes d) (dst : MemStore) {t : ID} {a : Addr}
    {sm : AMap ID Addr} (ha : ms.trace.get t = some a) (hsm : ms.span.get t = some sm) :
    ∃ mid fuel f tr a0 sm', unfoldNode ms.heap fuel a = some tr ∧
      (dst.readFrom (some d)).1.trace.get t = some a0 ∧
      unfoldNode (dst.readFrom (some d)).1.heap f a0 = some (gobTree tr) ∧
      (∀ n x, Forest.Steps (subsOf (dst.readFrom (some d)).1) n a0 x → x < mid) ∧
      (dst.readFrom (some d)).1.span.get t = some sm' ∧ (∀ s, sm'.get s = none ↔ sm.get s = none) ∧
      (∀ s x, sm'.get s = some x → mid ≤ x) := by
  obtain ⟨fuel, hw⟩ := hw
  obtain ⟨w1, w2⟩ := write_inv hw
  obtain ⟨-, -, e3, e4⟩ := encodeMap_spec w1
  obtain ⟨s1, s2, s3⟩ := encodeMaps_spec w2
  obtain ⟨a1, a2, a3, a4, a5, a6⟩ := allocMap_spec d.trace (dst.heap, dst.next)
  obtain ⟨b1, b2, b3, b4, b5⟩ := allocMaps_spec d.span (allocMap d.trace (dst.heap, dst.next)).2
  obtain ⟨tr, f1, f2⟩ := e4 t a ha
  obtain ⟨a0, g1, g2, g3⟩ := a6 t _ f2
  obtain ⟨l, k1, k2⟩ := s3 t sm hsm
  obtain ⟨sm', m1, m2, m3⟩ := b5 t l k2
  obtain ⟨-, q1, q2, q3⟩ := encodeMap_spec k1
  have H := Holds.frame (fun x _ hx => b2 x hx) (Nat.le_refl _) (Nat.le_refl _) _ _ g2
  have hkeys : AMap.keys sm' = AMap.keys sm := m2.trans q1
  refine ⟨(allocMap d.trace (dst.heap, dst.next)).2.2, fuel, _, tr, a0, sm', f1, g1, H.unfold _ _ _ (Nat.le_refl _), ?_, m1, ?_, ?_⟩
  · intro n x hs
    exact (Holds.reach H hs).2
  · intro s
    have key : ∀ m : AMap ID Addr, m.get s = none ↔ s ∉ AMap.keys m := by
      intro m
      rw [AMap.mem_keys_iff_exists]
      cases m.get s <;> simp
    rw [key, key, hkeys]
  · intro s x hx
    have : s ∈ AMap.keys l := by
      rw [← m2]
      exact (AMap.mem_keys_iff_exists _ _).2 ⟨x, hx⟩
    obtain ⟨u, hu⟩ := (AMap.mem_keys_iff_exists _ _).1 this
    obtain ⟨x', h1, h2⟩ := m3 s u hu
    rw [hx] at h1
    injection h1 with h1
    subst h1
    exact h2.bounds.1

open Classical in
/-- The node under whose declared span `x` hangs. -/
noncomputable def fixOf (V0 : Addr → Prop) (h : Addr → Node) (x : Addr) : Option Addr :=
  if hx : ∃ y, V0 y ∧ x ∈ (h y).sub ∧ (h x).id.parent = (h y).id.span then some hx.choose else none

theorem readFrom_after {ops : List StoreOp} {ms : MemStore} (h : MemStore.new.run ops = some ms) {d : GobData}
    (hw : ms.Writes d) {t : ID} {tr : Tree} (hv : ms.view t = .found tr) :
    ∃ V0 id0 fix r0 sm, Base (live t ops) V0 id0 fix r0 ∧ (id0 r0).span = tr.span.id.span ∧
      After (MemStore.new.readFrom (some d)).1 t (live t ops) [] V0 id0 fix r0 sm r0 := by
  have Sd : Sound ms := new_sound.run h
  have L := (readFrom_sound Sd hw new_loose).loose
  obtain ⟨S, -⟩ := run_state h t
  obtain ⟨T, hT, H, hu⟩ := run_view_found h hv
  rw [hT] at S
  obtain ⟨sm, ra, q1, q2, q3, R⟩ := S
  obtain ⟨mid, fuel, f, tr', a0, sm', p1, p2, p3, p4, p5, p6, p7⟩ := readFrom_parts hw MemStore.new q2 q1
  have htr : tr' = tr := by
    rw [view_eq_of_get q2] at hv
    exact unfoldNode_unique p1 hv
  subst htr
  generalize (MemStore.new.readFrom (some d)).1 = ms1 at *
  obtain ⟨hne, Hpar, Hann, I, Hroot⟩ := H
  let V0 : Addr → Prop := fun x => ∃ n, Forest.Steps (subsOf ms1) n a0 x
  rw [unfoldNode_forest] at p3
  have R0 : GobRel (fun a => ⟨(ms1.heap a).id, (ms1.heap a).anns⟩) (subsOf ms1) (T.label t) T.sub a0 T.root :=
    ⟨_, _, _, p3, hu⟩
  have hlab : ∀ x y, GobRel (fun a => ⟨(ms1.heap a).id, (ms1.heap a).anns⟩) (subsOf ms1) (T.label t) T.sub x y →
      (ms1.heap x).id = ⟨t, y, (T.par y).getD 0⟩ ∧ (ms1.heap x).anns = (annotationsOf (live t ops) y).map gobAnnotation := by
    intro x y hr
    have := hr.node.1
    simp only [ATrace.label, Span.mk.injEq] at this
    rw [← Hann]
    exact this
  have hsub : ∀ x y, GobRel (fun a => ⟨(ms1.heap a).id, (ms1.heap a).anns⟩) (subsOf ms1) (T.label t) T.sub x y →
      (subsOf ms1 x).map (fun a => (ms1.heap a).id.span) = T.sub y := by
    intro x y hr
    have := forall₂_mapped (f := fun a => (ms1.heap a).id.span) (g := fun s : ID => s)
      (fun x y hr => by rw [(hlab x y hr).1]) hr.node.2
    rw [this, List.map_id']
  have huniq : ∀ n x x', Forest.Steps (subsOf ms1) n a0 x → (∃ m, Forest.Steps (subsOf ms1) m a0 x') →
      (ms1.heap x).id.span = (ms1.heap x').id.span → x = x' := by
    intro n
    induction n with
    | zero =>
      rintro x x' hx ⟨m, hx'⟩ e
      cases hx
      obtain ⟨y', s', r'⟩ := R0.down hx'
      rw [(hlab _ _ R0).1, (hlab _ _ r').1] at e
      simp only at e
      subst e
      have := I.wf.steps_depth s' (show Forest.Steps T.sub 0 T.root T.root from rfl)
      subst this
      exact hx'
    | succ n ih =>
      rintro x x' hx ⟨m, hx'⟩ e
      obtain ⟨y, s, r⟩ := R0.down hx
      obtain ⟨y', s', r'⟩ := R0.down hx'
      rw [(hlab _ _ r).1, (hlab _ _ r').1] at e
      simp only at e
      subst e
      have := I.wf.steps_depth s s'
      subst this
      obtain ⟨p, hp, hxp⟩ := hx
      obtain ⟨p', hp', hxp'⟩ := hx'
      obtain ⟨q, sq, rq⟩ := R0.down hp
      obtain ⟨q', sq', rq'⟩ := R0.down hp'
      have m1 : y ∈ T.sub q := by
        rw [← hsub _ _ rq]
        exact List.mem_map.2 ⟨x, hxp, by rw [(hlab _ _ r).1]⟩
      have m2 : y ∈ T.sub q' := by
        rw [← hsub _ _ rq']
        exact List.mem_map.2 ⟨x', hxp', by rw [(hlab _ _ r').1]⟩
      have eq := I.wf.uniq _ _ _ m1 m2
      subst eq
      have ep : p = p' := ih p p' hp ⟨n, hp'⟩ (by rw [(hlab _ _ rq).1, (hlab _ _ rq').1])
      subst ep
      have hnd : ((subsOf ms1 p).map (fun a => (ms1.heap a).id.span)).Nodup := by
        rw [hsub _ _ rq]; exact I.wf.nodup q
      exact List.inj_on_of_nodup_map hnd hxp hxp' (by rw [(hlab _ _ r).1, (hlab _ _ r').1])
  have hrel : ∀ x, V0 x → ∃ y n, Forest.Steps T.sub n T.root y ∧
      GobRel (fun a => ⟨(ms1.heap a).id, (ms1.heap a).anns⟩) (subsOf ms1) (T.label t) T.sub x y := by
    rintro x ⟨n, hx⟩
    obtain ⟨y, s, r⟩ := R0.down hx
    exact ⟨y, n, s, r⟩
  have hspan : ∀ x y, GobRel (fun a => ⟨(ms1.heap a).id, (ms1.heap a).anns⟩) (subsOf ms1) (T.label t) T.sub x y →
      (ms1.heap x).id.span = y := fun x y r => by rw [(hlab x y r).1]
  have hinj : ∀ a b, V0 a → V0 b → (ms1.heap a).id.span = (ms1.heap b).id.span → a = b := by
    rintro a b ⟨n, ha⟩ hb e
    exact huniq n a b ha hb e
  have hchild : ∀ a x, V0 a → x ∈ subsOf ms1 a → V0 x := fun a x ⟨n, ha⟩ hx => ⟨n + 1, a, ha, hx⟩
  have hone : ∀ a b x, V0 a → V0 b → x ∈ subsOf ms1 a → x ∈ subsOf ms1 b → a = b := by
    intro a b x ha hb h1 h2
    obtain ⟨y, n, s, r⟩ := hrel a ha
    obtain ⟨y', n', s', r'⟩ := hrel b hb
    apply hinj a b ha hb
    rw [hspan _ _ r, hspan _ _ r']
    apply I.wf.uniq _ _ (ms1.heap x).id.span
    · rw [← hsub _ _ r]; exact List.mem_map.2 ⟨x, h1, rfl⟩
    · rw [← hsub _ _ r']; exact List.mem_map.2 ⟨x, h2, rfl⟩
  have hnr : ∀ a, V0 a → a0 ∉ subsOf ms1 a := by
    intro a ha hm
    obtain ⟨y, n, s, r⟩ := hrel a ha
    apply I.wf.rootless y
    rw [← hsub _ _ r, ← hspan _ _ R0]
    exact List.mem_map.2 ⟨a0, hm, rfl⟩
  have hdecl : ∀ a, V0 a → declaredParent (live t ops) (ms1.heap a).id.span = some (ms1.heap a).id.parent := by
    intro a ha
    obtain ⟨y, n, s, r⟩ := hrel a ha
    rw [← Hpar, (hlab _ _ r).1]
    have := I.steps_dom s
    cases hp : T.par y with
    | none => rw [hp] at this; cases this
    | some p => rfl
  have hdom : ∀ s, sm'.get s = none ↔ ¬ Collected (live t ops) s := by
    intro s
    rw [p6, not_collected_iff, ← Hpar]
    have := R.dom s
    cases h1 : T.par s <;> cases h2 : sm.get s <;> simp_all
  have hplace : ∀ a x, V0 a → x ∈ subsOf ms1 a →
      (ms1.heap x).id.parent = (ms1.heap a).id.span ∨ (a = a0 ∧ ¬ Collected (live t ops) (ms1.heap x).id.parent) := by
    intro a x ha hx
    obtain ⟨y, n, s, r⟩ := hrel a ha
    have hm : (ms1.heap x).id.span ∈ T.sub y := by
      rw [← hsub _ _ r]; exact List.mem_map.2 ⟨x, hx, rfl⟩
    have hd := hdecl x (hchild a x ha hx)
    rw [← Hpar] at hd
    rcases I.place _ _ hm with h1 | ⟨h1, q, h2, h3⟩
    · left
      rw [hspan _ _ r]
      rw [h1] at hd
      injection hd with hd
      exact hd.symm
    · right
      rw [h2] at hd
      injection hd with hd
      refine ⟨hinj a a0 ha ⟨0, rfl⟩ ?_, ?_⟩
      · rw [hspan _ _ r, hspan _ _ R0, h1]
      · rw [not_collected_iff, ← Hpar, ← hd]
        exact h3
  have hfix : ∀ a x, V0 a → x ∈ subsOf ms1 a → fixOf V0 ms1.heap x =
      if (ms1.heap x).id.parent = (ms1.heap a).id.span then some a else none := by
    intro a x ha hx
    unfold fixOf
    by_cases hex : ∃ y, V0 y ∧ x ∈ (ms1.heap y).sub ∧ (ms1.heap x).id.parent = (ms1.heap y).id.span
    · rw [dif_pos hex]
      obtain ⟨h1, h2, h3⟩ := hex.choose_spec
      have := hone _ _ _ h1 ha h2 hx
      rw [this] at h3
      rw [if_pos h3, this]
    · rw [dif_neg hex, if_neg (fun e => hex ⟨a, ha, hx, e⟩)]
  have hfixS : ∀ x y, fixOf V0 ms1.heap x = some y → V0 x ∧ V0 y ∧ x ≠ a0 ∧ (ms1.heap x).id.parent = (ms1.heap y).id.span := by
    intro x y hx
    unfold fixOf at hx
    split at hx
    · rename_i hex
      injection hx with hx
      have h := hex.choose_spec
      rw [hx] at h
      refine ⟨hchild _ _ h.1 h.2.1, h.1, ?_, h.2.2⟩
      rintro rfl
      exact hnr _ h.1 h.2.1
    · cases hx
  have hpar : ∀ x, V0 x → x ≠ a0 → ∃ a, V0 a ∧ x ∈ subsOf ms1 a := by
    rintro x ⟨n, hx⟩ hne
    cases n with
    | zero => exact absurd hx.symm hne
    | succ n =>
      obtain ⟨p, hp, hx⟩ := hx
      exact ⟨p, ⟨n, hp⟩, hx⟩
  have hfixr : fixOf V0 ms1.heap a0 = none := by
    cases hx : fixOf V0 ms1.heap a0 with
    | none => rfl
    | some y => exact absurd rfl (hfixS _ _ hx).2.2.1
  have hVis : ∀ a, Vis V0 (live t ops) sm' a ↔ V0 a := by
    intro a
    constructor
    · rintro (ha | ⟨s, h1, h2⟩)
      · exact ha
      · rw [(hdom s).2 h1] at h2; cases h2
    · exact Or.inl
  refine ⟨V0, fun a => (ms1.heap a).id, fixOf V0 ms1.heap, a0, sm', ⟨⟨0, rfl⟩, hdecl, hinj, hfixS, ?_, ?_⟩, ?_,
    ⟨L, p5, p2, ?_, ?_, ?_, ?_, ?_, ?_, Or.inl rfl, ?_⟩⟩
  · intro x hx hxa hf
    obtain ⟨a, ha, hm⟩ := hpar x hx hxa
    rcases hplace a x ha hm with h1 | h1
    · rw [hfix a x ha hm, if_pos h1] at hf; cases hf
    · exact h1.2
  · intro s p hs hp
    rw [← Hpar] at hs
    have hsd : (T.par s).isSome = true := by rw [hs]; rfl
    have key : ∃ n, Forest.Steps T.sub n T.root s := by
      by_cases e : s = T.root
      · exact ⟨0, e.symm⟩
      · obtain ⟨q, hq⟩ := I.has s hsd e
        rcases I.place _ _ hq with h1 | ⟨h1, -⟩
        · rw [hs] at h1
          injection h1 with h1
          subst h1
          rcases hp with hp | ⟨y, hy, e⟩
          · exfalso
            apply hp
            rw [collected_iff, ← Hpar]
            exact I.dom_p _ _ hq
          · obtain ⟨y', n, s', r⟩ := hrel y hy
            rw [hspan _ _ r] at e
            subst e
            exact ⟨n + 1, _, s', hq⟩
        · subst h1
          exact ⟨1, _, rfl, hq⟩
    obtain ⟨n, hn⟩ := key
    obtain ⟨x, hx, r⟩ := R0.up hn
    exact ⟨x, ⟨n, hx⟩, hspan _ _ r⟩
  · simp only
    rw [hspan _ _ R0, Forest.unfold_span _ hu]
    rfl
  · intro s
    rw [List.append_nil]
    rw [ne_eq, hdom, not_not]
  · intro s a _ h2
    rw [hVis]
    rintro ⟨n, hn⟩
    have := p4 n a hn
    have := p7 s a h2
    omega
  · intro a ha
    rw [hVis] at ha
    obtain ⟨n, hn⟩ := ha
    clear hVis hfixr hpar hfixS hfix hplace hdecl hnr hone hchild hinj hspan hrel huniq
    induction n generalizing a with
    | zero => cases hn; exact L.trace t _ p2
    | succ n ih =>
      obtain ⟨p, hp, hx⟩ := hn
      exact L.child (ih p hp) hx
  · refine PInv.congr (V := V0) (sub := subsOf ms1) (lk := sm'.get) ?_ hVis (fun _ _ => rfl) (fun _ => rfl) (fun _ _ => rfl)
      (fun _ _ => rfl)
    refine ⟨⟨0, rfl⟩, ?_, ?_, ?_, hfixr, ?_, ?_⟩
    · intro a ha
      rw [ne_eq, hdom, not_not, collected_iff, hdecl a ha]
      rfl
    · rintro s a h2 ⟨n, hn⟩
      have := p4 n a hn
      have := p7 s a h2
      omega
    · intro x y hx
      obtain ⟨h1, h2, -, h3⟩ := hfixS x y hx
      exact ⟨h1, h2, h3⟩
    · intro a ha
      obtain ⟨y, n, s, r⟩ := hrel a ha
      have := I.wf.nodup y
      rw [← hsub _ _ r] at this
      exact List.Nodup.of_map _ this
    · have hfwd : ∀ a, V0 a → ∀ x, x ∈ subsOf ms1 a → place (fixOf V0 ms1.heap) sm'.get (fun a => (ms1.heap a).id.parent) a0 x = a := by
        intro a ha x hx
        unfold place
        rw [hfix a x ha hx]
        rcases hplace a x ha hx with h1 | ⟨h1, h2⟩
        · rw [if_pos h1]; rfl
        · by_cases e : (ms1.heap x).id.parent = (ms1.heap a).id.span
          · rw [if_pos e]; rfl
          · rw [if_neg e, (hdom _).2 h2]
            exact h1.symm
      intro a ha x
      constructor
      · intro hx
        exact ⟨hchild a x ha hx, (by rintro rfl; exact hnr a ha hx), hfwd a ha x hx⟩
      · rintro ⟨h1, h2, h3⟩
        obtain ⟨b, hb, hx⟩ := hpar x h1 h2
        rw [hfwd b hb x hx] at h3
        exact h3 ▸ hx
  · intro a ha
    obtain ⟨y, n, s, r⟩ := hrel a ha
    refine ⟨rfl, ?_⟩
    rw [(hlab _ _ r).2, hspan _ _ r]
  · intro s a h1 h2
    rw [(hdom s).2 h1] at h2
    cases h2
  · intro hz i hi
    rw [List.append_nil] at hz hi
    rw [hspan _ _ R0]
    exact Hroot hz i hi

end Appdash
