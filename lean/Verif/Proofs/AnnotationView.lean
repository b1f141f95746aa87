import Verif.Spec.AnnotationView
import Verif.Model.Http
import Verif.Proofs.Chunked
import Verif.Proofs.ReflectKeys

/-! # The display of annotations: helper lemmas -/

namespace Appdash

open Spec

theorem filterAnnotations_eq (as : List Annotation) : filterAnnotations as = as.filter fun a => PublicKey a.key := by
  unfold filterAnnotations
  congr 1
  funext a
  cases a.key with
  | nil =>
    have : ¬ PublicKey [] := fun h => h
    simp [this]
  | cons c s =>
    by_cases h : c = 95
    · subst h; simp [PublicKey, List.isPrefixOf]
    · have : ¬ (95 : UInt8) = c := fun e => h e.symm
      simp [PublicKey, List.isPrefixOf, h, this]

theorem registerAll_mem : ∀ (Es : List EventType) (reg reg' : Registry), registerAll Es reg = some reg' →
    ∀ k : Bytes, (∃ e ∈ reg', k ∈ e.2.important) ↔ (∃ e ∈ reg, k ∈ e.2.important) ∨ ∃ E ∈ Es, k ∈ E.important := by
  intro Es
  induction Es with
  | nil =>
    intro reg reg' h k
    simp only [registerAll, Option.some.injEq] at h
    subst h
    simp
  | cons E Es ih =>
    intro reg reg' h k
    simp only [registerAll] at h
    cases hr : registerEvent reg E with
    | none => rw [hr] at h; simp at h
    | some reg1 =>
      rw [hr] at h
      rw [ih reg1 reg' h k]
      unfold registerEvent at hr
      cases hg : AMap.get reg E.schema with
      | some x => rw [hg] at hr; simp at hr
      | none =>
        rw [hg] at hr
        simp only at hr
        split at hr
        · cases hr
        · injection hr with hr
          subst hr
          rw [AMap.set_none hg]
          simp only [List.mem_append, List.mem_cons, List.not_mem_nil, or_false, or_and_right, exists_or,
            exists_eq_left]
          grind

theorem important_iff {Es : List EventType} {reg : Registry} (h : registerAll Es [] = some reg) (a : Annotation) :
    a.important reg = true ↔ ∃ E ∈ Es, a.key ∈ E.important := by
  have := registerAll_mem Es [] reg h a.key
  simp only [List.not_mem_nil, false_and, exists_false, false_or] at this
  rw [← this]
  simp [Annotation.important]

theorem nest_prefix {pre : Bytes} (h : pre ≠ []) (n : Bytes) : ∃ r, nest pre n = pre ++ r := by
  simp only [nest, h, if_false]
  exact ⟨_, rfl⟩

theorem flattenSeq_prefix (pre : Bytes) (h : pre ≠ []) (xs : List Scalar) : ∀ i, ∀ e ∈ flattenSeq pre i xs, ∃ r, e.1 = pre ++ r := by
  induction xs with
  | nil => intro i e he; cases he
  | cons x xs ih =>
    intro i e he
    simp only [flattenSeq, List.mem_cons] at he
    rcases he with rfl | he
    · exact nest_prefix h _
    · exact ih _ e he

mutual
theorem flatten_prefix (t : GType) (pre : Bytes) (v : GVal) (h : pre ≠ []) : ∀ e ∈ flatten t pre v, ∃ r, e.1 = pre ++ r := by
  intro e he
  match t, v, he with
  | .scalar _ _, .scalar x, he =>
    simp only [flatten, List.mem_singleton] at he
    subst he
    exact ⟨[], by simp⟩
  | .struct ns ts, .struct vs, he =>
    simp only [flatten] at he
    obtain ⟨n, -, r, hr⟩ := flattenFields_prefix ns ts pre vs (.inl h) e he
    obtain ⟨r', hr'⟩ := nest_prefix h n
    exact ⟨r' ++ r, by rw [hr, hr', List.append_assoc]⟩
  | .map _, .map m, he =>
    simp only [flatten, flattenMap, List.mem_map] at he
    obtain ⟨x, -, rfl⟩ := he
    exact nest_prefix h _
  | .slice _, .seq xs, he =>
    simp only [flatten] at he
    exact flattenSeq_prefix pre h xs 0 e he
  | .array _ _, .seq xs, he =>
    simp only [flatten] at he
    exact flattenSeq_prefix pre h xs 0 e he
theorem flattenFields_prefix (ns : List Bytes) (ts : List GType) (pre : Bytes) (vs : List GVal) (h : pre ≠ [] ∨ ∀ n ∈ ns, n ≠ []) :
    ∀ e ∈ flattenFields ns ts pre vs, ∃ n ∈ ns, ∃ r, e.1 = nest pre n ++ r := by
  intro e he
  match ns, ts, vs, he with
  | n :: ns, t :: ts, v :: vs, he =>
    simp only [flattenFields, List.mem_append] at he
    rcases he with he | he
    · have hne : nest pre n ≠ [] := by
        unfold nest
        split
        · rename_i hp
          rcases h with h | h
          · exact absurd hp h
          · exact h n (by simp)
        · simp
      obtain ⟨r, hr⟩ := flatten_prefix t (nest pre n) v hne e he
      exact ⟨n, by simp, r, hr⟩
    · obtain ⟨m, hm, hr⟩ := flattenFields_prefix ns ts pre vs (h.imp id fun h x hx => h x (by simp [hx])) e he
      exact ⟨m, by simp [hm], hr⟩
  | [], _, _, he => simp [flattenFields] at he
end

theorem mem_flattenFields_at (i : Nat) : ∀ {ns : List Bytes} {ts : List GType} {vs : List GVal} {pre n : Bytes} {t : GType} {v : GVal} {e : KV},
    ns[i]? = some n → ts[i]? = some t → vs[i]? = some v → e ∈ flatten t (nest pre n) v → e ∈ flattenFields ns ts pre vs := by
  induction i with
  | zero =>
    intro ns ts vs pre n t v e h1 h2 h3 he
    match ns, ts, vs, h1, h2, h3 with
    | _ :: _, _ :: _, _ :: _, h1, h2, h3 =>
      simp only [List.getElem?_cons_zero, Option.some.injEq] at h1 h2 h3
      subst h1 h2 h3
      simp only [flattenFields, List.mem_append]
      exact .inl he
  | succ i ih =>
    intro ns ts vs pre n t v e h1 h2 h3 he
    match ns, ts, vs, h1, h2, h3 with
    | _ :: _, _ :: _, _ :: _, h1, h2, h3 =>
      simp only [List.getElem?_cons_succ] at h1 h2 h3
      simp only [flattenFields, List.mem_append]
      exact .inr (ih h1 h2 h3 he)

/-- Every annotation of a struct whose fields have public names is shown. -/
theorem flatten_public {ns : List Bytes} {ts : List GType} {v : GVal} (h : ∀ n ∈ ns, PublicKey n) :
    ∀ e ∈ flatten (.struct ns ts) [] v, PublicKey e.1 := by
  intro e he
  cases v with
  | struct vs =>
    simp only [flatten] at he
    obtain ⟨n, hn, r, hr⟩ := flattenFields_prefix ns ts [] vs (.inr (by
      rintro n hn rfl
      exact h [] hn)) e he
    have := h n hn
    rw [hr]
    cases n with
    | nil => exact absurd this id
    | cons c s => exact this
  | _ => simp [flatten] at he

end Appdash
