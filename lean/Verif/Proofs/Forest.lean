import Mathlib.Data.List.Perm.Subperm
import Mathlib.Data.List.Nodup
import Verif.Model.Trace

/-!
# Unfolding a child-list function into a tree

Generic facts about graphs given by a child-list function `sub : α → List α` in which every node has at most one
incoming edge and a distinguished root has none.
-/

namespace Appdash
namespace Forest

variable {α : Type}

/-- There is a path of `n` edges from `a` to `x`. -/
def Steps (sub : α → List α) : Nat → α → α → Prop
  | 0, a, x => a = x
  | n + 1, a, x => ∃ p, Steps sub n a p ∧ x ∈ sub p

theorem Steps.cons {sub : α → List α} {n : Nat} {a c x : α} (hc : c ∈ sub a) (h : Steps sub n c x) :
    Steps sub (n + 1) a x := by
  induction n generalizing x with
  | zero => cases h; exact ⟨a, rfl, hc⟩
  | succ n ih =>
    obtain ⟨p, hp, hx⟩ := h
    exact ⟨p, ih hp, hx⟩

theorem Steps.trans {sub : α → List α} {m n : Nat} {a b x : α} (h1 : Steps sub m a b) (h2 : Steps sub n b x) :
    Steps sub (m + n) a x := by
  induction n generalizing x with
  | zero => cases h2; exact h1
  | succ n ih =>
    obtain ⟨p, hp, hx⟩ := h2
    exact ⟨p, ih hp, hx⟩

theorem Steps.head {sub : α → List α} {n : Nat} {a x : α} (h : Steps sub (n + 1) a x) :
    ∃ c ∈ sub a, Steps sub n c x := by
  induction n generalizing x with
  | zero =>
    obtain ⟨p, hp, hx⟩ := h
    cases hp
    exact ⟨x, hx, rfl⟩
  | succ n ih =>
    obtain ⟨p, hp, hx⟩ := h
    obtain ⟨c, hc, hs⟩ := ih hp
    exact ⟨c, hc, p, hs, hx⟩

/-- At most one incoming edge per node, none into the root, no repeated children. -/
structure Wf (sub : α → List α) (root : α) : Prop where
  nodup : ∀ p, (sub p).Nodup
  uniq : ∀ p q c, c ∈ sub p → c ∈ sub q → p = q
  rootless : ∀ p, root ∉ sub p

variable {sub : α → List α} {root : α}

theorem Wf.steps_source (w : Wf sub root) {n : Nat} {a b x : α} (h1 : Steps sub n a x) (h2 : Steps sub n b x) :
    a = b := by
  induction n generalizing x with
  | zero => cases h1; cases h2; rfl
  | succ n ih =>
    obtain ⟨p, hp, hx⟩ := h1
    obtain ⟨q, hq, hy⟩ := h2
    have := w.uniq _ _ _ hx hy
    subst this
    exact ih hp hq

theorem Wf.steps_depth (w : Wf sub root) {m n : Nat} {x : α} (h1 : Steps sub m root x)
    (h2 : Steps sub n root x) : m = n := by
  induction m generalizing n x with
  | zero =>
    cases h1
    cases n with
    | zero => rfl
    | succ n =>
      obtain ⟨p, -, hx⟩ := h2
      exact absurd hx (w.rootless p)
  | succ m ih =>
    obtain ⟨p, hp, hx⟩ := h1
    cases n with
    | zero =>
      cases h2
      exact absurd hx (w.rootless p)
    | succ n =>
      obtain ⟨q, hq, hy⟩ := h2
      have := w.uniq _ _ _ hx hy
      subst this
      rw [ih hp hq]

/-- The nodes on the path from the root, last one first, are pairwise different. -/
theorem Wf.path (w : Wf sub root) {n : Nat} {x : α} (h : Steps sub n root x) :
    ∃ l : List α, l.length = n + 1 ∧ l.Nodup ∧ (∀ y ∈ l, ∃ k ≤ n, Steps sub k root y) ∧ x ∈ l := by
  induction n generalizing x with
  | zero => cases h; exact ⟨[root], rfl, by simp, by intro y hy; exact ⟨0, Nat.le_refl _, (List.mem_singleton.1 hy).symm⟩, by simp⟩
  | succ n ih =>
    obtain ⟨p, hp, hx⟩ := h
    obtain ⟨l, h1, h2, h3, h4⟩ := ih hp
    refine ⟨x :: l, by simp [h1], ?_, ?_, by simp⟩
    · rw [List.nodup_cons]
      refine ⟨?_, h2⟩
      intro hm
      obtain ⟨k, hk, hs⟩ := h3 x hm
      have hx' : Steps sub (n + 1) root x := ⟨p, hp, hx⟩
      have := w.steps_depth hs hx'
      omega
    · intro y hy
      rcases List.mem_cons.1 hy with rfl | hy
      · exact ⟨n + 1, Nat.le_refl _, p, hp, hx⟩
      · obtain ⟨k, hk, hs⟩ := h3 y hy
        exact ⟨k, by omega, hs⟩

/-- Paths from the root are shorter than any list covering the reachable nodes. -/
theorem Wf.depth_lt (w : Wf sub root) (dom : List α) (hd : ∀ n x, Steps sub n root x → x ∈ dom) {n : Nat}
    {x : α} (h : Steps sub n root x) : n < dom.length := by
  obtain ⟨l, h1, h2, h3, -⟩ := w.path h
  have : l ⊆ dom := by
    intro y hy
    obtain ⟨k, -, hs⟩ := h3 y hy
    exact hd k y hs
  have := (List.subperm_of_subset h2 this).length_le
  omega

/-- Unfold to depth `fuel`. -/
def unfold (label : α → Span) (sub : α → List α) : Nat → α → Option Tree
  | 0, _ => none
  | fuel + 1, a =>
    match (sub a).mapM (unfold label sub fuel) with
    | none => none
    | some ts => some (.node (label a) ts)

theorem mapM_isSome {β γ : Type} (f : β → Option γ) (l : List β) (h : ∀ x ∈ l, ∃ y, f x = some y) :
    ∃ ys, l.mapM f = some ys := by
  induction l with
  | nil => exact ⟨[], rfl⟩
  | cons x l ih =>
    obtain ⟨y, hy⟩ := h x (by simp)
    obtain ⟨ys, hys⟩ := ih (fun z hz => h z (by simp [hz]))
    exact ⟨y :: ys, by simp [List.mapM_cons, hy, hys]⟩

theorem mapM_cons_some {β γ : Type} {f : β → Option γ} {x : β} {l : List β} {r : List γ}
    (h : (x :: l).mapM f = some r) : ∃ y ys, f x = some y ∧ l.mapM f = some ys ∧ r = y :: ys := by
  rw [List.mapM_cons] at h
  cases hx : f x with
  | none => simp [hx] at h
  | some y =>
    cases hl : l.mapM f with
    | none => simp [hx, hl] at h
    | some ys =>
      simp [hx, hl] at h
      exact ⟨y, ys, rfl, rfl, h.symm⟩

theorem mapM_nil_some {β γ : Type} {f : β → Option γ} {r : List γ}
    (h : ([] : List β).mapM f = some r) : r = [] := by
  simpa using h.symm

theorem mapM_congr_some {β γ : Type} {f g : β → Option γ} {l : List β} {r : List γ}
    (h : l.mapM f = some r) (hfg : ∀ x ∈ l, ∀ y, f x = some y → g x = some y) : l.mapM g = some r := by
  induction l generalizing r with
  | nil => simpa using h
  | cons x l ih =>
    obtain ⟨y, ys, h1, h2, rfl⟩ := mapM_cons_some h
    have e1 := hfg x (by simp) y h1
    have e2 := ih h2 (fun z hz => hfg z (by simp [hz]))
    simp [List.mapM_cons, e1, e2]

theorem unfold_isSome (label : α → Span) (fuel : Nat) (a : α)
    (h : ∀ n x, Steps sub n a x → n < fuel) : ∃ t, unfold label sub fuel a = some t := by
  induction fuel generalizing a with
  | zero => exact absurd (h 0 a rfl) (by omega)
  | succ fuel ih =>
    have : ∀ c ∈ sub a, ∃ t, unfold label sub fuel c = some t := by
      intro c hc
      apply ih
      intro n x hs
      have := h (n + 1) x (Steps.cons hc hs)
      omega
    obtain ⟨ts, hts⟩ := mapM_isSome _ _ this
    exact ⟨.node (label a) ts, by simp [unfold, hts]⟩

/-- If unfolding succeeds, every path from `a` is shorter than the fuel. -/
theorem steps_lt_of_unfold (label : α → Span) {fuel : Nat} {a : α} {t : Tree}
    (h : unfold label sub fuel a = some t) {n : Nat} {x : α} (hs : Steps sub n a x) : n < fuel := by
  induction fuel generalizing a t n with
  | zero => simp [unfold] at h
  | succ fuel ih =>
    cases n with
    | zero => omega
    | succ n =>
      obtain ⟨c, hc, hs⟩ := hs.head
      simp only [unfold] at h
      split at h
      · simp at h
      · rename_i ts hts
        have : ∃ t, unfold label sub fuel c = some t := by
          clear ih h hs
          generalize sub a = l at hc hts
          induction l generalizing ts with
          | nil => simp at hc
          | cons y l ihl =>
            obtain ⟨u, us, h1, h2, rfl⟩ := mapM_cons_some hts
            rcases List.mem_cons.1 hc with rfl | hc
            · exact ⟨u, h1⟩
            · exact ihl us hc h2
        obtain ⟨t', ht'⟩ := this
        have := ih ht' hs
        omega

/-- More fuel does not change the result. -/
theorem unfold_mono (label : α → Span) {fuel : Nat} {a : α} {t : Tree} (h : unfold label sub fuel a = some t)
    (k : Nat) (hk : fuel ≤ k) : unfold label sub k a = some t := by
  induction fuel generalizing a t k with
  | zero => simp [unfold] at h
  | succ fuel ih =>
    cases k with
    | zero => omega
    | succ k =>
      simp only [unfold] at h ⊢
      split at h
      · simp at h
      · rename_i ts hts
        have := mapM_congr_some hts (fun x _ y hy => ih hy k (by omega))
        simp only [this]
        exact h

/-- Depth-first list of nodes. -/
def pre (sub : α → List α) : Nat → α → List α
  | 0, _ => []
  | fuel + 1, a => a :: (sub a).flatMap (pre sub fuel)

/-- Edges in depth-first order. -/
def preEdges (sub : α → List α) : Nat → α → List (α × α)
  | 0, _ => []
  | fuel + 1, a => (sub a).map (fun c => (a, c)) ++ (sub a).flatMap (preEdges sub fuel)

theorem unfold_span (label : α → Span) {fuel : Nat} {a : α} {t : Tree} (h : unfold label sub fuel a = some t) :
    t.span = label a := by
  cases fuel with
  | zero => simp [unfold] at h
  | succ fuel =>
    simp only [unfold] at h
    split at h
    · simp at h
    · simp only [Option.some.injEq] at h
      subst h
      rfl

theorem unfold_spans (label : α → Span) {fuel : Nat} {a : α} {t : Tree} (h : unfold label sub fuel a = some t) :
    t.spans = (pre sub fuel a).map label := by
  induction fuel generalizing a t with
  | zero => simp [unfold] at h
  | succ fuel ih =>
    simp only [unfold] at h
    split at h
    · simp at h
    · rename_i ts hts
      simp only [Option.some.injEq] at h
      subst h
      simp only [Tree.spans, pre, List.map_cons, List.cons.injEq, true_and]
      generalize sub a = l at hts
      induction l generalizing ts with
      | nil => rw [mapM_nil_some hts]; simp [Tree.spansList]
      | cons x l ihl =>
        obtain ⟨y, ys, h1, h2, rfl⟩ := mapM_cons_some hts
        simp only [Tree.spansList, List.flatMap_cons, List.map_append]
        rw [ih h1, ihl ys h2]

theorem unfold_edges (label : α → Span) {fuel : Nat} {a : α} {t : Tree} (h : unfold label sub fuel a = some t) :
    t.edges = (preEdges sub fuel a).map (fun e => (label e.1, label e.2)) := by
  induction fuel generalizing a t with
  | zero => simp [unfold] at h
  | succ fuel ih =>
    simp only [unfold] at h
    split at h
    · simp at h
    · rename_i ts hts
      simp only [Option.some.injEq] at h
      subst h
      simp only [Tree.edges, preEdges, List.map_append, List.map_map]
      generalize sub a = l at hts
      have e1 : ts.map (fun c => (label a, c.span)) = l.map ((fun e => (label e.1, label e.2)) ∘ fun c => (a, c)) := by
        induction l generalizing ts with
        | nil => rw [mapM_nil_some hts]; simp
        | cons x l ihl =>
          obtain ⟨y, ys, h1, h2, rfl⟩ := mapM_cons_some hts
          simp only [List.map_cons, Function.comp, unfold_span label h1]
          rw [ihl ys h2]
      have e2 : Tree.edgesList ts = (l.flatMap (preEdges sub fuel)).map (fun e => (label e.1, label e.2)) := by
        clear e1
        induction l generalizing ts with
        | nil => rw [mapM_nil_some hts]; simp [Tree.edgesList]
        | cons x l ihl =>
          obtain ⟨y, ys, h1, h2, rfl⟩ := mapM_cons_some hts
          simp only [Tree.edgesList, List.flatMap_cons, List.map_append]
          rw [ih h1, ihl ys h2]
      rw [e1, e2]

theorem mem_pre {fuel : Nat} {a x : α} : x ∈ pre sub fuel a ↔ ∃ n, n < fuel ∧ Steps sub n a x := by
  induction fuel generalizing a with
  | zero => simp [pre]
  | succ fuel ih =>
    simp only [pre, List.mem_cons, List.mem_flatMap, ih]
    constructor
    · rintro (rfl | ⟨c, hc, n, hn, hs⟩)
      · exact ⟨0, by omega, rfl⟩
      · exact ⟨n + 1, by omega, hs.cons hc⟩
    · rintro ⟨n, hn, hs⟩
      cases n with
      | zero => cases hs; exact Or.inl rfl
      | succ n =>
        obtain ⟨c, hc, hs⟩ := hs.head
        exact Or.inr ⟨c, hc, n, by omega, hs⟩

theorem mem_preEdges {fuel : Nat} {a p c : α} :
    (p, c) ∈ preEdges sub fuel a ↔ p ∈ pre sub fuel a ∧ c ∈ sub p := by
  induction fuel generalizing a with
  | zero => simp [preEdges, pre]
  | succ fuel ih =>
    simp only [preEdges, pre, List.mem_append, List.mem_map, List.mem_flatMap, List.mem_cons, ih,
      Prod.mk.injEq]
    constructor
    · rintro (⟨x, hx, rfl, rfl⟩ | ⟨x, hx, h1, h2⟩)
      · exact ⟨Or.inl rfl, hx⟩
      · exact ⟨Or.inr ⟨x, hx, h1⟩, h2⟩
    · rintro ⟨rfl | ⟨x, hx, h1⟩, h2⟩
      · exact Or.inl ⟨c, h2, rfl, rfl⟩
      · exact Or.inr ⟨x, hx, h1, h2⟩

/-- No node occurs twice in the part reachable from the root. -/
theorem Wf.nodup_pre (w : Wf sub root) {fuel k : Nat} {a : α} (hk : Steps sub k root a) :
    (pre sub fuel a).Nodup := by
  induction fuel generalizing a k with
  | zero => simp [pre]
  | succ fuel ih =>
    simp only [pre, List.nodup_cons, List.mem_flatMap]
    constructor
    · rintro ⟨c, hc, hx⟩
      obtain ⟨n, -, hs⟩ := mem_pre.1 hx
      have h1 := hk.trans (hs.cons hc)
      have := w.steps_depth hk h1
      omega
    · rw [List.nodup_flatMap]
      refine ⟨fun c hc => ih (k := k + 1) ⟨a, hk, hc⟩, ?_⟩
      have hn := w.nodup a
      rw [List.pairwise_iff_getElem]
      intro i j hi hj hij x hx1 hx2
      obtain ⟨n1, -, hs1⟩ := mem_pre.1 hx1
      obtain ⟨n2, -, hs2⟩ := mem_pre.1 hx2
      have m1 : (sub a)[i] ∈ sub a := List.getElem_mem _
      have m2 : (sub a)[j] ∈ sub a := List.getElem_mem _
      have h1 := hk.trans (hs1.cons m1)
      have h2 := hk.trans (hs2.cons m2)
      have hd := w.steps_depth h1 h2
      have : n1 = n2 := by omega
      subst this
      have heq := w.steps_source hs1 hs2
      have := (List.nodup_iff_injective_get.1 hn) (a₁ := ⟨i, hi⟩) (a₂ := ⟨j, hj⟩) heq
      simp at this
      omega

end Forest
end Appdash
