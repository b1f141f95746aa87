import Verif.Proofs.Restart

/-! # Where spans hang after a restart: the child lists only

After `ReadFrom` a span has two nodes: one in the tree that is shown, one that the span map points to.  This file
follows the child lists of the shown nodes and of the nodes made after the restart (`V`), without the heap. -/

namespace Appdash

open Spec

/-- Where node `x` hangs: nodes that hung under their declared parent at the restart stay there (`fix`); the others are
under the node the span map has for the declared parent, or else under the root. -/
def place (fix : Addr → Option Addr) (lk : ID → Option Addr) (par : Addr → ID) (r x : Addr) : Addr :=
  (fix x).getD ((lk (par x)).getD r)

structure PInv (V : Addr → Prop) (sub : Addr → List Addr) (fix : Addr → Option Addr) (lk : ID → Option Addr)
    (par sp : Addr → ID) (r : Addr) : Prop where
  root : V r
  known : ∀ a, V a → lk (sp a) ≠ none
  lkV : ∀ s a, lk s = some a → V a → sp a = s
  fixV : ∀ x y, fix x = some y → V x ∧ V y ∧ par x = sp y
  fixr : fix r = none
  nodup : ∀ a, V a → (sub a).Nodup
  mem : ∀ a, V a → ∀ x, x ∈ sub a ↔ V x ∧ x ≠ r ∧ place fix lk par r x = a

/-- Child lists after `insert` of `x` under `q`. -/
def subIns (sub : Addr → List Addr) (x q : Addr) : Addr → List Addr := fun a => if a = q then sub a ++ [x] else sub a

/-- Child lists after moving the children of `src` that satisfy `f` to `dst`. -/
def subMove (sub : Addr → List Addr) (f : Addr → Bool) (dst src : Addr) : Addr → List Addr := fun a =>
  if a = src then (sub src).filter (fun c => !f c) else if a = dst then sub dst ++ (sub src).filter f else sub a

theorem mem_subIns (sub : Addr → List Addr) (x q a c : Addr) :
    c ∈ subIns sub x q a ↔ c ∈ sub a ∨ (a = q ∧ c = x) := by
  unfold subIns
  split <;> simp_all

theorem mem_subMove (sub : Addr → List Addr) (f : Addr → Bool) {dst src : Addr} (hne : dst ≠ src) (a c : Addr) :
    c ∈ subMove sub f dst src a ↔
      (a = src ∧ c ∈ sub src ∧ f c = false) ∨ (a = dst ∧ (c ∈ sub dst ∨ (c ∈ sub src ∧ f c = true))) ∨
      (a ≠ src ∧ a ≠ dst ∧ c ∈ sub a) := by
  unfold subMove
  split
  · simp_all
    intro h; exact absurd h.symm hne
  · split <;> simp_all

theorem nodup_subIns {sub : Addr → List Addr} {x q a : Addr} (h : (sub a).Nodup) (hx : x ∉ sub a) :
    (subIns sub x q a).Nodup := by
  unfold subIns
  split
  · rw [List.nodup_append]
    refine ⟨h, by simp, ?_⟩
    intro y hy z hz
    rw [List.mem_singleton] at hz
    rintro rfl
    exact hx (hz ▸ hy)
  · exact h

theorem nodup_subMove {sub : Addr → List Addr} {f : Addr → Bool} {dst src a : Addr} (h : (sub a).Nodup)
    (hs : (sub src).Nodup) (hd : ∀ x, x ∈ sub src → f x = true → x ∉ sub dst) : (subMove sub f dst src a).Nodup := by
  unfold subMove
  split
  · exact hs.filter _
  · split
    · rename_i e
      subst e
      rw [List.nodup_append]
      refine ⟨h, hs.filter _, ?_⟩
      intro y hy z hz
      rintro rfl
      rw [List.mem_filter] at hz
      exact hd y hz.1 hz.2 hy
    · exact h

section
variable {V : Addr → Prop} {sub : Addr → List Addr} {fix : Addr → Option Addr} {lk : ID → Option Addr}
  {par sp : Addr → ID} {r s : Addr}

/-- A new span, the root stays. -/
theorem PInv.keepRoot (P : PInv V sub fix lk par sp r) (hV : ¬ V s) (hlk : lk (sp s) = none) (hfix : fix s = none)
    (hfr : ∀ i, lk i ≠ some s)
    (hsub : sub s = []) (hpr : par r ≠ sp s) {lk' : ID → Option Addr}
    (hlk' : ∀ i, lk' i = if i = sp s then some s else lk i) {q : Addr} (hq : q = (lk' (par s)).getD r) :
    PInv (fun a => V a ∨ a = s) (subMove (subIns sub s q) (fun c => decide (par c = sp s)) s r) fix lk' par sp r := by
  have hsr : s ≠ r := fun e => hV (e ▸ P.root)
  have hVs : ∀ a, V a → a ≠ s := fun a ha e => hV (e ▸ ha)
  have hsps : ∀ a, V a → sp a ≠ sp s := fun a ha e => P.known a ha (e ▸ hlk)
  have hns : ∀ a, V a → s ∉ sub a := fun a ha hm => hV ((P.mem a ha s).1 hm).1
  have hpl : ∀ x, V x → place fix lk' par r x =
      if fix x = none ∧ par x = sp s then s else place fix lk par r x := by
    intro x hx
    unfold place
    rw [hlk']
    cases hf : fix x with
    | some y => simp
    | none =>
      by_cases e : par x = sp s
      · simp [e]
      · simp [e]
  have hdef : ∀ x, V x → x ∈ sub r → par x = sp s → fix x = none := by
    intro x hx hm e
    cases hf : fix x with
    | none => rfl
    | some y =>
      obtain ⟨-, h1, h2⟩ := P.fixV x y hf
      exact absurd (h2.symm.trans e) (hsps y h1)
  have hps : place fix lk' par r s = q := by
    unfold place
    rw [hfix, hq]
    rfl
  refine ⟨Or.inl P.root, ?_, ?_, ?_, P.fixr, ?_, ?_⟩
  · rintro a (ha | rfl)
    · rw [hlk', if_neg (hsps a ha)]
      exact P.known a ha
    · rw [hlk', if_pos rfl]
      simp
  · intro i a h ha
    rw [hlk'] at h
    split at h
    · injection h with h
      subst h
      rename_i e
      exact e.symm
    · rcases ha with ha | rfl
      · exact P.lkV i a h ha
      · exact absurd h (hfr i)
  · intro x y h
    exact ⟨Or.inl (P.fixV x y h).1, Or.inl (P.fixV x y h).2.1, (P.fixV x y h).2.2⟩
  · intro a ha
    have h0 : ∀ b, (V b ∨ b = s) → (sub b).Nodup ∧ s ∉ sub b := by
      rintro b (hb | rfl)
      · exact ⟨P.nodup b hb, hns b hb⟩
      · rw [hsub]; simp
    refine nodup_subMove (nodup_subIns (h0 a ha).1 (h0 a ha).2) (nodup_subIns (h0 r (Or.inl P.root)).1 (h0 r (Or.inl P.root)).2) ?_
    intro x hx hfx
    rw [mem_subIns] at hx ⊢
    rw [hsub]
    simp only [decide_eq_true_eq] at hfx
    rintro (h | ⟨h, rfl⟩)
    · cases h
    · rcases hx with hx | ⟨hx, -⟩
      · exact hns r P.root hx
      · exact hsr (h.trans hx.symm)
  · intro a ha x
    rw [mem_subMove _ _ hsr]
    simp only [mem_subIns, hsub, decide_eq_true_eq, decide_eq_false_iff_not]
    by_cases hxs : x = s
    · subst hxs
      have h1 := hns r P.root
      have h2 : V a → x ∉ sub a := fun h => hns a h
      rw [hps]
      by_cases har : a = r
      · subst har
        by_cases e : par x = sp x
        · have : q = x := by rw [hq, hlk', if_pos e]; rfl
          grind
        · grind
      · grind
    · by_cases hVx : V x
      · rw [hpl x hVx]
        have hm := fun b hb => P.mem b hb x
        have hd := hdef x hVx
        have hpr' : fix x = none → par x = sp s → place fix lk par r x = r := by
          intro h1 h2
          unfold place
          rw [h1, h2, hlk]
          rfl
        have hmr := hm r P.root
        by_cases hxr : x = r
        · subst hxr
          grind
        · rcases ha with ha | ha
          · have hma := hm a ha
            have has := hVs a ha
            generalize place fix lk par r x = z at *
            clear P hpl hVs hsps hns hdef hlk' hm hq hps hfr
            grind
          · subst ha
            have hz : V (place fix lk par r x) → place fix lk par r x ≠ a := hVs _
            have hz' : place fix lk par r x ≠ a := by
              unfold place
              cases hf : fix x with
              | some y => exact hVs y (P.fixV x y hf).2.1
              | none =>
                cases hl : lk (par x) with
                | none => exact hsr.symm
                | some y =>
                  rintro rfl
                  exact hfr _ hl
            generalize place fix lk par r x = z at *
            clear P hpl hVs hsps hns hdef hlk' hm hq hps hfr
            grind
      · have hm : ∀ b, V b → x ∉ sub b := fun b hb h => hVx ((P.mem b hb x).1 h).1
        have hmr := hm r P.root
        grind

/-- A new span becomes the root. -/
theorem PInv.newRoot (P : PInv V sub fix lk par sp r) (hV : ¬ V s) (hlk : lk (sp s) = none) (hfix : fix s = none)
    (hfr : ∀ i, lk i ≠ some s) (hsub : sub s = []) {lk' : ID → Option Addr}
    (hlk' : ∀ i, lk' i = if i = sp s then some s else lk i) {q : Addr} (hq : q = (lk' (par r)).getD s) :
    PInv (fun a => V a ∨ a = s) (subMove (subIns (subMove sub (fun c => decide (par c = sp s)) s r) r q)
      (fun c => decide (par c ≠ sp r)) s r) fix lk' par sp s := by
  have hsr : s ≠ r := fun e => hV (e ▸ P.root)
  have hVs : ∀ a, V a → a ≠ s := fun a ha e => hV (e ▸ ha)
  have hsps : ∀ a, V a → sp a ≠ sp s := fun a ha e => P.known a ha (e ▸ hlk)
  have hns : ∀ a, V a → s ∉ sub a := fun a ha hm => hV ((P.mem a ha s).1 hm).1
  have hnr : ∀ a, V a → r ∉ sub a := fun a ha hm => ((P.mem a ha r).1 hm).2.1 rfl
  have hdef : ∀ x, V x → x ∈ sub r → par x = sp s → fix x = none := by
    intro x hx hm e
    cases hf : fix x with
    | none => rfl
    | some y =>
      obtain ⟨-, h1, h2⟩ := P.fixV x y hf
      exact absurd (h2.symm.trans e) (hsps y h1)
  have hpr : place fix lk' par s r = q := by
    unfold place
    rw [P.fixr, hq]
    rfl
  have h0 : ∀ b, (V b ∨ b = s) → (sub b).Nodup ∧ s ∉ sub b ∧ r ∉ sub b := by
    rintro b (hb | rfl)
    · exact ⟨P.nodup b hb, hns b hb, hnr b hb⟩
    · rw [hsub]; simp
  have h1 : ∀ b, (V b ∨ b = s) → (subMove sub (fun c => decide (par c = sp s)) s r b).Nodup := by
    intro b hb
    refine nodup_subMove (h0 b hb).1 (h0 r (Or.inl P.root)).1 ?_
    rw [hsub]
    simp
  have h1r : ∀ b, (V b ∨ b = s) → r ∉ subMove sub (fun c => decide (par c = sp s)) s r b := by
    intro b hb
    rw [mem_subMove _ _ hsr]
    have := (h0 b hb).2.2
    have := (h0 r (Or.inl P.root)).2.2
    have := (h0 s (Or.inr rfl)).2.2
    grind
  refine ⟨Or.inr rfl, ?_, ?_, ?_, hfix, ?_, ?_⟩
  · rintro a (ha | rfl)
    · rw [hlk', if_neg (hsps a ha)]
      exact P.known a ha
    · rw [hlk', if_pos rfl]
      simp
  · intro i a h ha
    rw [hlk'] at h
    split at h
    · injection h with h
      subst h
      rename_i e
      exact e.symm
    · rcases ha with ha | rfl
      · exact P.lkV i a h ha
      · exact absurd h (hfr i)
  · intro x y h
    exact ⟨Or.inl (P.fixV x y h).1, Or.inl (P.fixV x y h).2.1, (P.fixV x y h).2.2⟩
  · intro a ha
    refine nodup_subMove (nodup_subIns (h1 a ha) (h1r a ha)) (nodup_subIns (h1 r (Or.inl P.root)) (h1r r (Or.inl P.root))) ?_
    intro x hx hfx
    rw [mem_subIns, mem_subMove _ _ hsr] at hx ⊢
    rw [hsub]
    simp only [decide_eq_true_eq] at hfx ⊢
    have hxx := hnr r P.root
    have hqs : x = r → q ≠ s ∨ q ≠ r := fun _ => by
      by_cases e : q = s
      · exact Or.inr (e ▸ hsr)
      · exact Or.inl e
    have hsr' := hsr.symm
    clear P hVs hsps hns hdef hlk' hnr hq hpr hfr h0 h1 h1r
    grind
  · intro a ha x
    rw [mem_subMove _ _ hsr]
    simp only [mem_subIns, mem_subMove _ _ hsr, hsub, decide_eq_true_eq, decide_eq_false_iff_not]
    by_cases hxr : x = r
    · subst hxr
      have hx : ∀ b, V b → x ∉ sub b := hnr
      have hxx := hnr x P.root
      have hqs : par x ≠ sp x ∨ q ≠ s := by
        by_cases e : par x = sp x
        · right
          rw [hq, e, hlk', if_neg (hsps x P.root)]
          intro h
          cases hl : lk (sp x) with
          | none => exact P.known x P.root hl
          | some y => rw [hl] at h; exact hfr _ (hl.trans (congrArg some h))
        · exact Or.inl e
      have hqr : q = x → par x = sp x := by
        intro e
        rw [hq, hlk'] at e
        split at e
        · exact absurd e hsr
        · cases hl : lk (par x) with
          | none => rw [hl] at e; exact absurd e hsr
          | some y =>
            rw [hl] at e
            simp only [Option.getD_some] at e
            exact (P.lkV _ _ hl (e ▸ P.root)).symm.trans (congrArg sp e)
      have hsx := hsr.symm
      have hxa : V a → x ∉ sub a := fun h => hnr a h
      have hVx := P.root
      rw [hpr]
      clear P hVs hsps hns hdef hlk' hnr hq hpr hfr h0 h1 h1r hx
      grind
    · by_cases hVx : V x
      · have hm := fun b hb => P.mem b hb x
        have hmr := hm r P.root
        have hd := hdef x hVx
        have hxs := hVs x hVx
        have hpl : place fix lk' par s x =
            if fix x = none ∧ (par x = sp s ∨ lk (par x) = none) then s else place fix lk par r x := by
          unfold place
          rw [hlk']
          cases hf : fix x with
          | some y => simp
          | none =>
            by_cases e : par x = sp s
            · simp [e]
            · cases hl : lk (par x) <;> simp [e]
        have hpd : fix x = none → (par x = sp s ∨ lk (par x) = none) → place fix lk par r x = r := by
          intro h1 h2
          unfold place
          rw [h1]
          rcases h2 with h2 | h2
          · rw [h2, hlk]; rfl
          · rw [h2]; rfl
        have hpn : ¬ (fix x = none ∧ (par x = sp s ∨ lk (par x) = none)) → place fix lk par r x = r → par x = sp r := by
          intro h1 h2
          unfold place at h2
          cases hf : fix x with
          | some y =>
            rw [hf] at h2
            simp only [Option.getD_some] at h2
            rw [← h2]
            exact (P.fixV x y hf).2.2
          | none =>
            rw [hf] at h1 h2
            cases hl : lk (par x) with
            | none => exact absurd ⟨rfl, Or.inr hl⟩ h1
            | some y =>
              rw [hl] at h2
              simp only [Option.getD_some, Option.getD_none] at h2
              exact (P.lkV _ _ hl (h2 ▸ P.root)).symm.trans (congrArg sp h2)
        have hpt : fix x = none ∧ lk (par x) = none → par x ≠ sp r := by
          rintro ⟨-, h⟩ e
          exact P.known r P.root (e ▸ h)
        have hss : sp r ≠ sp s := hsps r P.root
        have hsr' := hsr.symm
        rw [hpl]
        rcases ha with ha | ha
        · have hma := hm a ha
          have has := hVs a ha
          generalize place fix lk par r x = z at *
          clear P hpl hVs hsps hns hdef hlk' hm hq hpr hfr h0 h1 h1r hnr
          grind
        · subst ha
          have hz' : place fix lk par r x ≠ a := by
            unfold place
            cases hf : fix x with
            | some y => exact hVs y (P.fixV x y hf).2.1
            | none =>
              cases hl : lk (par x) with
              | none => exact hsr.symm
              | some y =>
                rintro rfl
                exact hfr _ hl
          generalize place fix lk par r x = z at *
          clear P hpl hVs hsps hns hdef hlk' hm hq hpr hfr h0 h1 h1r hnr
          grind
      · have hm : ∀ b, V b → x ∉ sub b := fun b hb h => hVx ((P.mem b hb x).1 h).1
        have hmr := hm r P.root
        grind

theorem PInv.congr (P : PInv V sub fix lk par sp r) {V' : Addr → Prop} {sub' : Addr → List Addr} {lk' : ID → Option Addr}
    {par' sp' : Addr → ID} (hV : ∀ a, V' a ↔ V a) (hs : ∀ a, V a → sub' a = sub a) (hl : ∀ i, lk' i = lk i)
    (hp : ∀ a, V a → par' a = par a) (hsp : ∀ a, V a → sp' a = sp a) : PInv V' sub' fix lk' par' sp' r := by
  have hV' : V' = V := funext fun a => propext (hV a)
  have hl' : lk' = lk := funext hl
  subst hV' hl'
  refine ⟨P.root, fun a ha => by rw [hsp a ha]; exact P.known a ha, fun s a h ha => by rw [hsp a ha]; exact P.lkV s a h ha,
    fun x y h => ?_, P.fixr, fun a ha => by rw [hs a ha]; exact P.nodup a ha, fun a ha x => ?_⟩
  · obtain ⟨h1, h2, h3⟩ := P.fixV x y h
    exact ⟨h1, h2, by rw [hp x h1, hsp y h2]; exact h3⟩
  · rw [hs a ha, P.mem a ha x]
    constructor
    · rintro ⟨h1, h2, h3⟩
      exact ⟨h1, h2, by unfold place at h3 ⊢; rw [hp x h1]; exact h3⟩
    · rintro ⟨h1, h2, h3⟩
      exact ⟨h1, h2, by unfold place at h3 ⊢; rw [hp x h1] at h3; exact h3⟩
end

end Appdash
