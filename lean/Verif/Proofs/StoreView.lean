import Verif.Proofs.StoreHist
import Mathlib.Data.Fintype.Card
import Mathlib.Data.Set.Finite.List

/-! # Facts about the tree a reader sees -/

namespace Appdash

open Spec

/-- State of one trace after the calls `L`. -/
def ATrace.ofLive (L : List Entry) : Option ATrace :=
  L.foldl (fun o e => some (match o with
    | none => ATrace.fresh e.1.span e.1.parent e.2
    | some T => T.collect e.1.span e.1.parent e.2)) none

theorem ofLive_append (L : List Entry) (e : Entry) :
    ATrace.ofLive (L ++ [e]) = some (match ATrace.ofLive L with
      | none => ATrace.fresh e.1.span e.1.parent e.2
      | some T => T.collect e.1.span e.1.parent e.2) := by
  simp [ATrace.ofLive, List.foldl_append]

theorem run_eq_ofLive (ops : List StoreOp) (t : ID) : ∀ (A : AStore) (L : List Entry), A t = ATrace.ofLive L →
    A.run ops t = ATrace.ofLive (ops.foldl (liveStep t) L) := by
  induction ops with
  | nil => intro A L h; exact h
  | cons op ops ih =>
    intro A L h
    simp only [AStore.run, List.foldl_cons]
    apply ih
    cases op with
    | collect id as =>
      simp only [AStore.step, AStore.collect, upd, liveStep]
      by_cases e : t = id.trace
      · subst e
        simp only [if_true]
        rw [ofLive_append, h]
        cases ATrace.ofLive L <;> rfl
      · have e' : ¬ id.trace = t := fun e' => e e'.symm
        simp only [e, e', if_false]
        exact h
    | delete ids =>
      simp only [AStore.step, AStore.delete, liveStep]
      split
      · rfl
      · exact h

/-- Everything known about the state after a run. -/
theorem run_state {ops : List StoreOp} {ms : MemStore} (h : MemStore.new.run ops = some ms) (t : ID) :
    SimT ms t (ATrace.ofLive (live t ops)) ∧ HRep (ATrace.ofLive (live t ops)) (live t ops) := by
  obtain ⟨ms', h1, S⟩ := sim_run sim_new ops
  rw [h] at h1
  injection h1 with h1
  subst h1
  have e : AStore.empty.run ops t = ATrace.ofLive (live t ops) := run_eq_ofLive ops t _ _ rfl
  have H : HSim AStore.empty (fun _ => []) := fun _ => rfl
  have H' := H.run ops t
  have S' := S t
  rw [e] at S' H'
  exact ⟨S', H'⟩

/-- The tree seen for trace `t` in terms of the abstract trace. -/
theorem run_view {ops : List StoreOp} {ms : MemStore} (h : MemStore.new.run ops = some ms) (t : ID) :
    (live t ops = [] ∧ ms.view t = .notFound) ∨
    (live t ops ≠ [] ∧ ∃ T tr, ATrace.ofLive (live t ops) = some T ∧ HRep (some T) (live t ops) ∧
      ms.view t = .found tr ∧ Forest.unfold (T.label t) T.sub ms.next T.root = some tr) := by
  obtain ⟨S, H⟩ := run_state h t
  cases ho : ATrace.ofLive (live t ops) with
  | none =>
    rw [ho] at S H
    refine Or.inl ⟨H, ?_⟩
    simp [MemStore.view, MemStore.tracePtr, S.1]
  | some T =>
    rw [ho] at S H
    obtain ⟨tr, h1, h2⟩ := view_found S H.2.2.2.1
    exact Or.inr ⟨H.1, T, tr, rfl, H, h1, h2⟩

theorem run_view_found {ops : List StoreOp} {ms : MemStore} (h : MemStore.new.run ops = some ms) {t : ID}
    {tr : Tree} (hv : ms.view t = .found tr) :
    ∃ T, ATrace.ofLive (live t ops) = some T ∧ HRep (some T) (live t ops) ∧
      Forest.unfold (T.label t) T.sub ms.next T.root = some tr := by
  rcases run_view h t with ⟨-, h2⟩ | ⟨-, T, tr', h1, H, h2, h3⟩
  · rw [h2] at hv; cases hv
  · rw [h2] at hv
    injection hv with hv
    subst hv
    exact ⟨T, h1, H, h3⟩

/-- The view is a function of the live calls of the trace only. -/
theorem view_of_live {ops ops' : List StoreOp} {ms ms' : MemStore} (h : MemStore.new.run ops = some ms)
    (h' : MemStore.new.run ops' = some ms') (t : ID) (e : live t ops = live t ops') : ms.view t = ms'.view t := by
  rcases run_view h t with ⟨h1, h2⟩ | ⟨h1, T, tr, h2, H, h3, h4⟩
  · rcases run_view h' t with ⟨-, h2'⟩ | ⟨h1', -⟩
    · rw [h2, h2']
    · exact absurd (e ▸ h1) h1'
  · rcases run_view h' t with ⟨h1', -⟩ | ⟨h1', T', tr', h2', H', h3', h4'⟩
    · exact absurd (e ▸ h1') h1
    · rw [← e, h2] at h2'
      injection h2' with h2'
      subst h2'
      rw [h3, h3']
      have a := Forest.unfold_mono _ h4 (ms.next + ms'.next) (by omega)
      have b := Forest.unfold_mono _ h4' (ms.next + ms'.next) (by omega)
      rw [a] at b
      injection b with b
      rw [b]

section
variable {T : ATrace} {L : List Entry} (H : HRep (some T) L) {t : ID} {fuel : Nat} {tr : Tree}
  (hu : Forest.unfold (T.label t) T.sub fuel T.root = some tr)
include H hu

omit H in
/-- Spans in the tree are the reachable spans. -/
theorem mem_spans_iff (sp : Span) :
    sp ∈ tr.spans ↔ ∃ n s, Forest.Steps T.sub n T.root s ∧ sp = T.label t s := by
  rw [Forest.unfold_spans _ hu, List.mem_map]
  constructor
  · rintro ⟨s, hs, rfl⟩
    obtain ⟨n, -, h⟩ := Forest.mem_pre.1 hs
    exact ⟨n, s, h, rfl⟩
  · rintro ⟨n, s, h, rfl⟩
    exact ⟨s, Forest.mem_pre.2 ⟨n, Forest.steps_lt_of_unfold _ hu h, h⟩, rfl⟩

omit H in
theorem mem_edges_iff (a b : Span) :
    (a, b) ∈ tr.edges ↔ ∃ n p c, Forest.Steps T.sub n T.root p ∧ c ∈ T.sub p ∧ a = T.label t p ∧ b = T.label t c := by
  rw [Forest.unfold_edges _ hu, List.mem_map]
  constructor
  · rintro ⟨⟨p, c⟩, hs, he⟩
    obtain ⟨hs1, hs2⟩ := Forest.mem_preEdges.1 hs
    obtain ⟨n, -, h⟩ := Forest.mem_pre.1 hs1
    injection he with e1 e2
    exact ⟨n, p, c, h, hs2, e1.symm, e2.symm⟩
  · rintro ⟨n, p, c, h, hc, rfl, rfl⟩
    exact ⟨(p, c), Forest.mem_preEdges.2 ⟨Forest.mem_pre.2 ⟨n, Forest.steps_lt_of_unfold _ hu h, h⟩, hc⟩, rfl⟩

theorem spans_nodup : (tr.spans.map fun s => s.id.span).Nodup := by
  rw [Forest.unfold_spans _ hu, List.map_map]
  have : (fun s : Span => s.id.span) ∘ T.label t = _root_.id := by funext s; rfl
  rw [this, List.map_id]
  exact H.2.2.2.1.wf.nodup_pre (k := 0) rfl

omit hu in
theorem label_eq {n : Nat} {s : ID} (hs : Forest.Steps T.sub n T.root s) :
    ∃ p, declaredParent L s = some p ∧ T.label t s = ⟨⟨t, s, p⟩, annotationsOf L s⟩ := by
  have := H.2.2.2.1.steps_dom hs
  obtain ⟨p, hp⟩ := Option.isSome_iff_exists.1 this
  refine ⟨p, by rw [← H.2.1, hp], ?_⟩
  simp [ATrace.label, hp, H.2.2.1]

end

/-! ## Completeness -/

namespace Spec

theorem Ancestor.trans {L : List Entry} {a b c : ID} (h1 : Ancestor L a b) (h2 : Ancestor L b c) : Ancestor L a c := by
  induction h2 with
  | base h => exact .step h1 h
  | step _ h ih => exact .step ih h

theorem Ancestor.collected {L : List Entry} {a b : ID} (h : Ancestor L a b) : Collected L a := by
  induction h with
  | base h => exact h.2
  | step _ _ ih => exact ih

end Spec

/-- No cycle at or above `s`. -/
def Good (L : List Entry) (s : ID) : Prop := ∀ a, (a = s ∨ Ancestor L a s) → ¬ Ancestor L a a

theorem Good.parent {L : List Entry} {p s : ID} (h : Good L s) (hp : ParentOf L p s) : Good L p := by
  intro a ha
  rcases ha with rfl | ha
  · exact h a (Or.inr (.base hp))
  · exact h a (Or.inr (.step ha hp))

theorem good_wf (L : List Entry) :
    WellFounded (fun a b : {x : ID // x ∈ L.map (fun e => e.1.span) ∧ Good L x} => Ancestor L a.1 b.1) := by
  have hfin : Finite {x : ID // x ∈ L.map (fun e => e.1.span) ∧ Good L x} := by
    have h1 : {x : ID | x ∈ L.map (fun e => e.1.span) ∧ Good L x}.Finite :=
      Set.Finite.subset (List.finite_toSet (L.map fun e : Entry => e.1.span)) (fun x hx => hx.1)
    exact h1.to_subtype
  have i1 : IsTrans {x : ID // x ∈ L.map (fun e => e.1.span) ∧ Good L x} (fun a b => Ancestor L a.1 b.1) :=
    ⟨fun a b c h1 h2 => h1.trans h2⟩
  have i2 : Std.Irrefl (fun a b : {x : ID // x ∈ L.map (fun e => e.1.span) ∧ Good L x} => Ancestor L a.1 b.1) :=
    ⟨fun a h => a.2.2 a.1 (Or.inl rfl) h⟩
  exact Finite.wellFounded_of_trans_of_irrefl _

theorem reachable_of_good {T : ATrace} {L : List Entry} (H : HRep (some T) L) {s : ID} (hc : Collected L s)
    (hg : Good L s) : ∃ n, Forest.Steps T.sub n T.root s := by
  have key : ∀ x : {x : ID // x ∈ L.map (fun e => e.1.span) ∧ Good L x}, ∃ n, Forest.Steps T.sub n T.root x.1 := by
    intro x
    induction x using (good_wf L).induction with
    | _ x ih =>
      obtain ⟨s, hs, hg⟩ := x
      have I := H.2.2.2.1
      have hcs : Collected L s := by
        obtain ⟨e, he, h⟩ := List.mem_map.1 hs
        exact ⟨e, he, h⟩
      by_cases e : s = T.root
      · exact ⟨0, e.symm⟩
      · have hd : (T.par s).isSome = true := by rw [H.2.1, ← collected_iff]; exact hcs
        obtain ⟨p, hp⟩ := I.has s hd e
        rcases I.place p s hp with h | ⟨rfl, -⟩
        · have hpc : Collected L p := by
            rw [collected_iff, ← H.2.1]; exact I.dom_p p s hp
          have hpo : ParentOf L p s := ⟨by rw [← H.2.1]; exact h, hpc⟩
          have hpm : p ∈ L.map (fun e => e.1.span) := by
            obtain ⟨e, he, h⟩ := hpc
            exact List.mem_map.2 ⟨e, he, h⟩
          obtain ⟨n, hn⟩ := ih ⟨p, hpm, hg.parent hpo⟩ (.base hpo)
          exact ⟨n + 1, p, hn, hp⟩
        · exact ⟨1, T.root, rfl, hp⟩
  have hm : s ∈ L.map (fun e => e.1.span) := by
    obtain ⟨e, he, h⟩ := hc
    exact List.mem_map.2 ⟨e, he, h⟩
  exact key ⟨s, hm, hg⟩

theorem Good.of_parent {L : List Entry} {s : ID} (h : ∀ q, declaredParent L s = some q → Collected L q → Good L q) :
    Good L s := by
  have anc : ∀ a, Ancestor L a s → ∃ q, ParentOf L q s ∧ (a = q ∨ Ancestor L a q) := by
    intro a ha
    cases ha with
    | base h => exact ⟨a, h, Or.inl rfl⟩
    | step h h' => exact ⟨_, h', Or.inr h⟩
  have self : ¬ Ancestor L s s := by
    intro hs
    obtain ⟨q, hq, hsq⟩ := anc s hs
    have hgq := h q hq.1 hq.2
    apply hgq q (Or.inl rfl)
    rcases hsq with rfl | hsq
    · exact .base hq
    · exact (Ancestor.base hq).trans hsq
  intro a ha
  rcases ha with rfl | ha
  · exact self
  · obtain ⟨q, hq, haq⟩ := anc a ha
    exact h q hq.1 hq.2 a haq

theorem good_of_reachable {T : ATrace} {L : List Entry} (H : HRep (some T) L)
    (hr : ∀ q, declaredParent L T.root = some q → ¬ Collected L q) {n : Nat} {s : ID}
    (hs : Forest.Steps T.sub n T.root s) : Good L s := by
  have I := H.2.2.2.1
  induction n generalizing s with
  | zero =>
    cases hs
    apply Good.of_parent
    intro q h1 h2
    exact absurd h2 (hr q h1)
  | succ n ih =>
    obtain ⟨p, hp, hx⟩ := hs
    apply Good.of_parent
    intro q h1 h2
    rw [← H.2.1] at h1
    rcases I.place p s hx with h | ⟨-, q', h, h'⟩
    · rw [h] at h1
      injection h1 with h1
      subst h1
      exact ih hp
    · rw [h] at h1
      injection h1 with h1
      subst h1
      rw [H.2.1, ← not_collected_iff] at h'
      exact absurd h2 h'

/-! ## Order independence -/

theorem forestEquiv_of_perm {f g : ID → Option Tree} (hfg : ∀ c t u, f c = some t → g c = some u → TreeEquiv t u) :
    ∀ (cs cs' : List ID) (ts us : List Tree), cs.Perm cs' → cs.mapM f = some ts → cs'.mapM g = some us →
      ForestEquiv ts us := by
  have split : ∀ (a b : List ID) (us : List Tree), (a ++ b).mapM g = some us →
      ∃ u v, us = u ++ v ∧ a.mapM g = some u ∧ b.mapM g = some v := by
    intro a
    induction a with
    | nil => intro b us h; exact ⟨[], us, rfl, rfl, h⟩
    | cons x a ih =>
      intro b us h
      obtain ⟨y, ys, h1, h2, rfl⟩ := Forest.mapM_cons_some h
      obtain ⟨u, v, rfl, h3, h4⟩ := ih b ys h2
      exact ⟨y :: u, v, rfl, by simp [List.mapM_cons, h1, h3], h4⟩
  have join : ∀ (a b : List ID) (u v : List Tree), a.mapM g = some u → b.mapM g = some v →
      (a ++ b).mapM g = some (u ++ v) := by
    intro a b u v h1 h2
    rw [List.mapM_append, h1, h2]; rfl
  intro cs
  induction cs with
  | nil =>
    intro cs' ts us hp h1 h2
    have : cs' = [] := List.nil_perm.1 hp
    subst this
    rw [Forest.mapM_nil_some h1, Forest.mapM_nil_some h2]
    exact .nil
  | cons c cs ih =>
    intro cs' ts us hp h1 h2
    have hm : c ∈ cs' := hp.subset (by simp)
    obtain ⟨a, b, rfl⟩ := List.append_of_mem hm
    have hp' : cs.Perm (a ++ b) := (hp.trans List.perm_middle).cons_inv
    obtain ⟨t, ts', ht, hts, rfl⟩ := Forest.mapM_cons_some h1
    obtain ⟨u1, v, rfl, hu1, hv⟩ := split _ _ _ h2
    obtain ⟨u, u2, hu, hu2, rfl⟩ := Forest.mapM_cons_some hv
    exact .cons (hfg c t u ht hu) (ih _ _ _ hp' hts (join _ _ _ _ hu1 hu2))

theorem unfold_equiv {l l' : ID → Span} {sub sub' : ID → List ID}
    (hid : ∀ s, (l s).id = (l' s).id) (ha : ∀ s, (l s).annotations.Perm (l' s).annotations)
    (hs : ∀ s, (sub s).Perm (sub' s)) (fuel fuel' : Nat) (s : ID) (t u : Tree)
    (h1 : Forest.unfold l sub fuel s = some t) (h2 : Forest.unfold l' sub' fuel' s = some u) : TreeEquiv t u := by
  induction fuel generalizing fuel' s t u with
  | zero => simp [Forest.unfold] at h1
  | succ fuel ih =>
    cases fuel' with
    | zero => simp [Forest.unfold] at h2
    | succ fuel' =>
      simp only [Forest.unfold] at h1 h2
      cases hm : (sub s).mapM (Forest.unfold l sub fuel) with
      | none => simp [hm] at h1
      | some ts =>
        cases hm' : (sub' s).mapM (Forest.unfold l' sub' fuel') with
        | none => simp [hm'] at h2
        | some us =>
          simp only [hm, hm', Option.some.injEq] at h1 h2
          subst h1 h2
          exact .node (hid s) (ha s) (forestEquiv_of_perm (fun c t u => ih fuel' c t u) _ _ _ _ (hs s) hm hm')

/-- The children of each span are determined by the declared parents and the root. -/
theorem mem_sub_iff {T : ATrace} (I : AInv T) (y c : ID) :
    c ∈ T.sub y ↔ ∃ q, T.par c = some q ∧ c ≠ T.root ∧ y = if (T.par q).isSome then q else T.root := by
  constructor
  · intro h
    have hne : c ≠ T.root := fun e => I.wf.rootless y (e ▸ h)
    rcases I.place y c h with h1 | ⟨rfl, q, h1, h2⟩
    · exact ⟨y, h1, hne, by simp [I.dom_p y c h]⟩
    · exact ⟨q, h1, hne, by simp [h2]⟩
  · rintro ⟨q, h1, h2, rfl⟩
    obtain ⟨p, hp⟩ := I.has c (by rw [h1]; rfl) h2
    rcases I.place p c hp with h3 | ⟨rfl, q', h3, h4⟩
    · rw [h1] at h3
      injection h3 with h3
      subst h3
      rw [if_pos (I.dom_p q c hp)]
      exact hp
    · rw [h1] at h3
      injection h3 with h3
      subst h3
      rw [h4]
      simpa using hp

end Appdash
