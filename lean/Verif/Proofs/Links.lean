import Verif.Spec.Views
import Verif.Spec.Store

/-!
# Helper lemmas about subtrees, for the links on pages
-/

namespace Appdash

open Spec

/-- A span of a tree is the root of a subtree. -/
theorem subtree_at {tr : Tree} {sp : Span} (h : sp ∈ tr.spans) : ∃ u, Subtree u tr ∧ u.span = sp := by
  induction tr using Tree.rec (motive_2 := fun ts => sp ∈ Tree.spansList ts → ∃ c ∈ ts, ∃ u, Subtree u c ∧ u.span = sp) with
  | node s ts ih =>
    simp only [Tree.spans, List.mem_cons] at h
    rcases h with rfl | h
    · exact ⟨_, .refl _, rfl⟩
    · obtain ⟨c, hc, u, hu, e⟩ := ih h
      exact ⟨u, .child hu hc, e⟩
  | nil => rename_i h; simp [Tree.spansList] at h
  | cons t ts ih1 ih2 =>
    rename_i h
    simp only [Tree.spansList, List.mem_append] at h
    rcases h with h | h
    · exact ⟨t, by simp, ih1 h⟩
    · obtain ⟨c, hc, r⟩ := ih2 h
      exact ⟨c, by simp [hc], r⟩

mutual
theorem mem_shown (env : ViewEnv) : ∀ (t : Tree) (d : Nat) (x : Nat × Span), x ∈ shown env d t → x.2 ∈ t.spans
  | .node s cs, d, x, h => by
    unfold shown at h
    split at h
    · rcases List.mem_cons.1 h with rfl | h
      · simp [Tree.spans]
      · simp [Tree.spans, mem_shownList env cs _ x h]
    · simp at h
theorem mem_shownList (env : ViewEnv) : ∀ (ts : List Tree) (d : Nat) (x : Nat × Span), x ∈ shownList env d ts →
    x.2 ∈ Tree.spansList ts
  | [], d, x, h => by simp [shownList] at h
  | c :: cs, d, x, h => by
    simp only [shownList, List.mem_append] at h
    simp only [Tree.spansList, List.mem_append]
    rcases h with h | h
    · exact .inl (mem_shown env c d x h)
    · exact .inr (mem_shownList env cs d x h)
end

mutual
theorem subtree_of_mem_subtrees : ∀ (t u : Tree), u ∈ t.subtrees → Subtree u t
  | .node s cs, u, h => by
    simp only [Tree.subtrees, List.mem_cons] at h
    rcases h with rfl | h
    · exact .refl _
    · obtain ⟨c, hc, hu⟩ := subtree_of_mem_subtreesList cs u h
      exact .child hu hc
theorem subtree_of_mem_subtreesList : ∀ (ts : List Tree) (u : Tree), u ∈ subtreesList ts → ∃ c ∈ ts, Subtree u c
  | [], u, h => by simp [subtreesList] at h
  | c :: cs, u, h => by
    simp only [subtreesList, List.mem_append] at h
    rcases h with h | h
    · exact ⟨c, by simp, subtree_of_mem_subtrees c u h⟩
    · obtain ⟨d, hd, r⟩ := subtree_of_mem_subtreesList cs u h
      exact ⟨d, by simp [hd], r⟩
end

end Appdash
