import Verif.Spec.Persist
import Verif.Proofs.StoreTraces

/-! # Lemmas about persistence -/

namespace Appdash

open Spec

/-! ## Unfolding -/

theorem unfoldNode_mono {h : Addr → Node} {fuel : Nat} {a : Addr} {t : Tree} (e : unfoldNode h fuel a = some t) (k : Nat)
    (hk : fuel ≤ k) : unfoldNode h k a = some t := by
  induction fuel generalizing a t k with
  | zero => simp [unfoldNode] at e
  | succ fuel ih =>
    cases k with
    | zero => omega
    | succ k =>
      simp only [unfoldNode] at e ⊢
      cases hm : (h a).sub.mapM (unfoldNode h fuel) with
      | none => simp [hm] at e
      | some ts =>
        have := Forest.mapM_congr_some (g := unfoldNode h k) hm (fun x _ y hy => ih hy k (by omega))
        rw [hm] at e
        rw [this]
        exact e

theorem unfoldNode_unique {h : Addr → Node} {f f' : Nat} {a : Addr} {t t' : Tree} (e : unfoldNode h f a = some t)
    (e' : unfoldNode h f' a = some t') : t = t' := by
  have h1 := unfoldNode_mono e (f + f') (by omega)
  have h2 := unfoldNode_mono e' (f + f') (by omega)
  rw [h1] at h2
  injection h2

/-! ## Trees in the heap -/

mutual
/-- The heap holds the tree `t` at `a`, in cells between `lo` and `hi`. -/
def Holds (h : Addr → Node) (lo hi : Nat) : Addr → Tree → Prop
  | a, .node s ts => lo ≤ a ∧ a < hi ∧ (h a).id = s.id ∧ (h a).anns = s.annotations ∧ HoldsList h lo hi (h a).sub ts
/-- The same for a list. -/
def HoldsList (h : Addr → Node) (lo hi : Nat) : List Addr → List Tree → Prop
  | [], [] => True
  | a :: as, t :: ts => Holds h lo hi a t ∧ HoldsList h lo hi as ts
  | _, _ => False
end

mutual
theorem Holds.frame {h h' : Addr → Node} {lo hi lo' hi' : Nat} (e : ∀ x, lo ≤ x → x < hi → h' x = h x)
    (h1 : lo' ≤ lo) (h2 : hi ≤ hi') : ∀ (t : Tree) (a : Addr), Holds h lo hi a t → Holds h' lo' hi' a t
  | .node s ts, a, H => by
    simp only [Holds] at H ⊢
    obtain ⟨b1, b2, e1, e2, e3⟩ := H
    rw [e a b1 b2]
    exact ⟨by omega, by omega, e1, e2, HoldsList.frame e h1 h2 ts _ e3⟩
theorem HoldsList.frame {h h' : Addr → Node} {lo hi lo' hi' : Nat} (e : ∀ x, lo ≤ x → x < hi → h' x = h x)
    (h1 : lo' ≤ lo) (h2 : hi ≤ hi') : ∀ (ts : List Tree) (as : List Addr), HoldsList h lo hi as ts →
      HoldsList h' lo' hi' as ts
  | [], [], _ => by simp [HoldsList]
  | [], _ :: _, H => by simp [HoldsList] at H
  | _ :: _, [], H => by simp [HoldsList] at H
  | t :: ts, a :: as, H => by
    simp only [HoldsList] at H ⊢
    exact ⟨Holds.frame e h1 h2 t a H.1, HoldsList.frame e h1 h2 ts as H.2⟩
end

theorem Holds.bounds {h : Addr → Node} {lo hi : Nat} {a : Addr} {t : Tree} (H : Holds h lo hi a t) : lo ≤ a ∧ a < hi := by
  cases t
  simp only [Holds] at H
  exact ⟨H.1, H.2.1⟩

mutual
theorem Holds.unfold {h : Addr → Node} {lo hi : Nat} : ∀ (t : Tree) (a : Addr), Holds h lo hi a t →
    ∀ fuel, t.spans.length ≤ fuel → unfoldNode h fuel a = some t
  | .node s ts, a, H, fuel, hf => by
    simp only [Holds] at H
    obtain ⟨-, -, e1, e2, e3⟩ := H
    cases fuel with
    | zero => simp [Tree.spans] at hf
    | succ fuel =>
      simp only [Tree.spans, List.length_cons] at hf
      simp only [unfoldNode]
      rw [HoldsList.unfold ts _ e3 fuel (by omega)]
      simp only [e1, e2]
theorem HoldsList.unfold {h : Addr → Node} {lo hi : Nat} : ∀ (ts : List Tree) (as : List Addr), HoldsList h lo hi as ts →
    ∀ fuel, (Tree.spansList ts).length ≤ fuel → as.mapM (unfoldNode h fuel) = some ts
  | [], [], _, _, _ => rfl
  | [], _ :: _, H, _, _ => by simp [HoldsList] at H
  | _ :: _, [], H, _, _ => by simp [HoldsList] at H
  | t :: ts, a :: as, H, fuel, hf => by
    simp only [HoldsList] at H
    simp only [Tree.spansList, List.length_append] at hf
    rw [List.mapM_cons, Holds.unfold t a H.1 fuel (by omega), HoldsList.unfold ts as H.2 fuel (by omega)]
    rfl
end

mutual
theorem allocTree_spec : ∀ (t : Tree) (st : Heap),
    (allocTree t st).2.2 = st.2 + t.spans.length ∧ (∀ x, x < st.2 → (allocTree t st).2.1 x = st.1 x) ∧
    Holds (allocTree t st).2.1 st.2 (allocTree t st).2.2 (allocTree t st).1 t
  | .node s ts, st => by
    obtain ⟨h1, h2, h3⟩ := allocTrees_spec ts st
    have e : (allocTree (.node s ts) st) = ((allocTrees ts st).2.2, (heapUpd (allocTrees ts st).2.1 (allocTrees ts st).2.2
      { id := s.id, anns := s.annotations, sub := (allocTrees ts st).1 }, (allocTrees ts st).2.2 + 1)) := rfl
    rw [e]
    refine ⟨?_, ?_, ?_⟩
    · simp only [Tree.spans, List.length_cons, h1]; omega
    · intro x hx
      have : x ≠ (allocTrees ts st).2.2 := by omega
      simp only [heapUpd, this, if_false]
      exact h2 x hx
    · simp only [Holds, heapUpd, if_true]
      refine ⟨by omega, by omega, trivial, trivial, ?_⟩
      refine HoldsList.frame ?_ (Nat.le_refl _) (Nat.le_succ _) _ _ h3
      intro x _ hx
      have : x ≠ (allocTrees ts st).2.2 := by omega
      exact if_neg this
theorem allocTrees_spec : ∀ (ts : List Tree) (st : Heap),
    (allocTrees ts st).2.2 = st.2 + (Tree.spansList ts).length ∧ (∀ x, x < st.2 → (allocTrees ts st).2.1 x = st.1 x) ∧
    HoldsList (allocTrees ts st).2.1 st.2 (allocTrees ts st).2.2 (allocTrees ts st).1 ts
  | [], st => by simp [allocTrees, Tree.spansList, HoldsList]
  | t :: ts, st => by
    obtain ⟨h1, h2, h3⟩ := allocTree_spec t st
    obtain ⟨k1, k2, k3⟩ := allocTrees_spec ts (allocTree t st).2
    have e : allocTrees (t :: ts) st = ((allocTree t st).1 :: (allocTrees ts (allocTree t st).2).1,
      (allocTrees ts (allocTree t st).2).2) := rfl
    rw [e]
    refine ⟨?_, ?_, ?_⟩
    · simp only [Tree.spansList, List.length_append, k1, h1]; omega
    · intro x hx
      rw [k2 x (by omega)]
      exact h2 x hx
    · simp only [HoldsList]
      refine ⟨Holds.frame (fun x _ hx => k2 x hx) (Nat.le_refl _) (by omega) _ _ h3, ?_⟩
      exact HoldsList.frame (fun x _ _ => rfl) (by omega) (Nat.le_refl _) _ _ k3
end

/-- The decoded map holds exactly the trees of the transmitted map. -/
theorem allocMap_spec : ∀ (m : AMap ID Tree) (st : Heap),
    st.2 ≤ (allocMap m st).2.2 ∧ (∀ x, x < st.2 → (allocMap m st).2.1 x = st.1 x) ∧
    (allocMap m st).1.length = m.length ∧ AMap.keys (allocMap m st).1 = AMap.keys m ∧
    (∀ k, m.get k = none → (allocMap m st).1.get k = none) ∧
    (∀ k t, m.get k = some t → ∃ a, (allocMap m st).1.get k = some a ∧
      Holds (allocMap m st).2.1 st.2 (allocMap m st).2.2 a t ∧ t.spans.length ≤ (allocMap m st).2.2)
  | [], st => by simp [allocMap, AMap.keys]
  | (k, t) :: m, st => by
    obtain ⟨h1, h2, h3⟩ := allocTree_spec t st
    obtain ⟨k1, k2, k3, k4, k5, k6⟩ := allocMap_spec m (allocTree t st).2
    have e : allocMap ((k, t) :: m) st = ((k, (allocTree t st).1) :: (allocMap m (allocTree t st).2).1,
      (allocMap m (allocTree t st).2).2) := rfl
    rw [e]
    refine ⟨by simp only; omega, ?_, by simp [k3], by simpa [AMap.keys] using k4, ?_, ?_⟩
    · intro x hx
      simp only
      rw [k2 x (by omega)]
      exact h2 x hx
    · intro k' hk
      simp only [AMap.get] at hk ⊢
      split at hk
      · cases hk
      · rename_i hne
        rw [if_neg hne]
        exact k5 k' hk
    · intro k' t' hk
      simp only [AMap.get] at hk ⊢
      split at hk
      · rename_i he
        injection hk with hk
        subst hk
        rw [if_pos he]
        refine ⟨_, rfl, ?_, ?_⟩
        · exact Holds.frame (fun x _ hx => k2 x hx) (Nat.le_refl _) (by omega) _ _ h3
        · omega
      · rename_i hne
        rw [if_neg hne]
        obtain ⟨a, e1, e2, e3⟩ := k6 k' t' hk
        refine ⟨a, e1, ?_, e3⟩
        exact Holds.frame (fun x _ _ => rfl) (by omega) (Nat.le_refl _) _ _ e2

theorem allocMaps_spec : ∀ (m : AMap ID (AMap ID Tree)) (st : Heap),
    st.2 ≤ (allocMaps m st).2.2 ∧ (∀ x, x < st.2 → (allocMaps m st).2.1 x = st.1 x) ∧
    AMap.keys (allocMaps m st).1 = AMap.keys m ∧
    (∀ k, m.get k = none → (allocMaps m st).1.get k = none) ∧
    (∀ k l, m.get k = some l → ∃ l', (allocMaps m st).1.get k = some l' ∧ AMap.keys l' = AMap.keys l ∧
      ∀ s t, l.get s = some t → ∃ a, l'.get s = some a ∧ Holds (allocMaps m st).2.1 st.2 (allocMaps m st).2.2 a t)
  | [], st => by simp [allocMaps, AMap.keys]
  | (k, l) :: m, st => by
    obtain ⟨h1, h2, -, h4, -, h6⟩ := allocMap_spec l st
    obtain ⟨k1, k2, k4, k5, k6⟩ := allocMaps_spec m (allocMap l st).2
    have e : allocMaps ((k, l) :: m) st = ((k, (allocMap l st).1) :: (allocMaps m (allocMap l st).2).1,
      (allocMaps m (allocMap l st).2).2) := rfl
    rw [e]
    refine ⟨by simp only; omega, ?_, by simpa [AMap.keys] using k4, ?_, ?_⟩
    · intro x hx
      simp only
      rw [k2 x (by omega)]
      exact h2 x hx
    · intro k' hk
      simp only [AMap.get] at hk ⊢
      split at hk
      · cases hk
      · rename_i hne
        rw [if_neg hne]
        exact k5 k' hk
    · intro k' l' hk
      simp only [AMap.get] at hk ⊢
      split at hk
      · rename_i he
        injection hk with hk
        subst hk
        rw [if_pos he]
        refine ⟨_, rfl, h4, ?_⟩
        intro s t hs
        obtain ⟨a, e1, e2, -⟩ := h6 s t hs
        exact ⟨a, e1, Holds.frame (fun x _ hx => k2 x hx) (Nat.le_refl _) (by omega) _ _ e2⟩
      · rename_i hne
        rw [if_neg hne]
        obtain ⟨l1, e1, e2, e3⟩ := k6 k' l' hk
        refine ⟨l1, e1, e2, ?_⟩
        intro s t hs
        obtain ⟨a, e4, e5⟩ := e3 s t hs
        exact ⟨a, e4, Holds.frame (fun x _ _ => rfl) (by omega) (Nat.le_refl _) _ _ e5⟩

/-! ## Encoding -/

theorem encodeMap_spec {h : Addr → Node} {fuel : Nat} : ∀ {m : AMap ID Addr} {l : AMap ID Tree},
    MemStore.encodeMap h fuel m = some l → l.length = m.length ∧ AMap.keys l = AMap.keys m ∧
      (∀ k, m.get k = none → l.get k = none) ∧
      (∀ k a, m.get k = some a → ∃ tr, unfoldNode h fuel a = some tr ∧ l.get k = some (gobTree tr)) := by
  intro m
  induction m with
  | nil =>
    intro l e
    have := Forest.mapM_nil_some e
    subst this
    simp [AMap.keys]
  | cons p m ih =>
    intro l e
    obtain ⟨k, a⟩ := p
    obtain ⟨y, ys, e1, e2, rfl⟩ := Forest.mapM_cons_some e
    obtain ⟨i1, i2, i3, i4⟩ := ih e2
    simp only [Option.map_eq_some_iff] at e1
    obtain ⟨tr, e3, rfl⟩ := e1
    refine ⟨by simp [i1], by simpa [AMap.keys] using i2, ?_, ?_⟩
    · intro k' hk
      simp only [AMap.get] at hk ⊢
      split at hk
      · cases hk
      · rename_i hne
        rw [if_neg hne]
        exact i3 k' hk
    · intro k' a' hk
      simp only [AMap.get] at hk ⊢
      split at hk
      · rename_i he
        injection hk with hk
        subst hk
        rw [if_pos he]
        exact ⟨tr, e3, rfl⟩
      · rename_i hne
        rw [if_neg hne]
        exact i4 k' a' hk

theorem encodeMaps_spec {h : Addr → Node} {fuel : Nat} : ∀ {m : AMap ID (AMap ID Addr)} {l : AMap ID (AMap ID Tree)},
    MemStore.encodeMaps h fuel m = some l → AMap.keys l = AMap.keys m ∧
      (∀ k, m.get k = none → l.get k = none) ∧
      (∀ k n, m.get k = some n → ∃ n', MemStore.encodeMap h fuel n = some n' ∧ l.get k = some n') := by
  intro m
  induction m with
  | nil =>
    intro l e
    have := Forest.mapM_nil_some e
    subst this
    simp [AMap.keys]
  | cons p m ih =>
    intro l e
    obtain ⟨k, a⟩ := p
    obtain ⟨y, ys, e1, e2, rfl⟩ := Forest.mapM_cons_some e
    obtain ⟨i2, i3, i4⟩ := ih e2
    simp only [Option.map_eq_some_iff] at e1
    obtain ⟨tr, e3, rfl⟩ := e1
    refine ⟨by simpa [AMap.keys] using i2, ?_, ?_⟩
    · intro k' hk
      simp only [AMap.get] at hk ⊢
      split at hk
      · cases hk
      · rename_i hne
        rw [if_neg hne]
        exact i3 k' hk
    · intro k' a' hk
      simp only [AMap.get] at hk ⊢
      split at hk
      · rename_i he
        injection hk with hk
        subst hk
        rw [if_pos he]
        exact ⟨tr, e3, rfl⟩
      · rename_i hne
        rw [if_neg hne]
        exact i4 k' a' hk

theorem write_inv {ms : MemStore} {fuel : Nat} {d : GobData} (h : ms.write fuel = some d) :
    MemStore.encodeMap ms.heap fuel ms.trace = some d.trace ∧ MemStore.encodeMaps ms.heap fuel ms.span = some d.span := by
  unfold MemStore.write at h
  split at h
  · cases h
  · split at h
    · cases h
    · rename_i _ h1 _ _ h2
      injection h with h
      subst h
      exact ⟨h1, h2⟩

/-! ## What gob changes -/

theorem gobAnnotation_same (a : Annotation) : SameAnnotation a (gobAnnotation a) := by
  refine ⟨rfl, ?_⟩
  unfold gobAnnotation
  simp only
  split
  · rename_i h; rw [h]; rfl
  · rfl

theorem forall₂_map_right {α β : Type} {R : α → β → Prop} {f : α → β} (h : ∀ a, R a (f a)) :
    ∀ l : List α, List.Forall₂ R l (l.map f)
  | [] => .nil
  | a :: l => .cons (h a) (forall₂_map_right h l)

mutual
theorem gobTree_same : ∀ t : Tree, SameTree t (gobTree t)
  | .node s ts => by
    simp only [gobTree]
    exact .node rfl (forall₂_map_right gobAnnotation_same _) (gobTrees_same ts)
theorem gobTrees_same : ∀ ts : List Tree, SameTrees ts (gobTrees ts)
  | [] => by simp only [gobTrees]; exact .nil
  | t :: ts => by simp only [gobTrees]; exact .cons (gobTree_same t) (gobTrees_same ts)
end

theorem gobAnnotation_id {a : Annotation} (h : a.value ≠ some []) : gobAnnotation a = a := by
  simp [gobAnnotation, h]

mutual
theorem gobTree_id : ∀ t : Tree, (∀ sp ∈ t.spans, ∀ a ∈ sp.annotations, a.value ≠ some []) → gobTree t = t
  | .node s ts, h => by
    simp only [Tree.spans, List.mem_cons, forall_eq_or_imp] at h
    simp only [gobTree]
    rw [gobTrees_id ts h.2]
    have : s.annotations.map gobAnnotation = s.annotations := by
      have e := List.map_congr_left (l := s.annotations) (f := gobAnnotation) (g := _root_.id)
        (fun a ha => gobAnnotation_id (h.1 a ha))
      rw [e, List.map_id]
    rw [this]
theorem gobTrees_id : ∀ ts : List Tree, (∀ sp ∈ Tree.spansList ts, ∀ a ∈ sp.annotations, a.value ≠ some []) →
    gobTrees ts = ts
  | [], _ => rfl
  | t :: ts, h => by
    simp only [Tree.spansList, List.mem_append] at h
    simp only [gobTrees]
    rw [gobTree_id t (fun sp hs => h sp (Or.inl hs)), gobTrees_id ts (fun sp hs => h sp (Or.inr hs))]
end

end Appdash
