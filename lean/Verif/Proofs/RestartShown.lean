import Verif.Proofs.RestartRead
import Verif.Spec.Restart

/-! # What is shown of a trace after a restart -/

namespace Appdash

open Spec

section
variable {ms : MemStore} {t : ID} {L1 M : List Entry} {V0 : Addr → Prop} {id0 : Addr → SpanID}
  {fix : Addr → Option Addr} {r0 : Addr} {sm : AMap ID Addr} {r : Addr}

theorem Base.old (B : Base L1 V0 id0 fix r0) {a : Addr} (ha : V0 a) : Collected L1 (id0 a).span := by
  rw [collected_iff, B.decl a ha]; rfl

/-- Every node that can be shown carries its declared parent and its annotations. -/
theorem After.label (B : Base L1 V0 id0 fix r0) (A : After ms t L1 M V0 id0 fix r0 sm r) {a : Addr} (ha : Vis V0 L1 sm a) :
    declaredParent (L1 ++ M) (ms.heap a).id.span = some (ms.heap a).id.parent ∧
    ((V0 a ∧ Collected L1 (ms.heap a).id.span ∧
        (ms.heap a).anns = (annotationsOf L1 (ms.heap a).id.span).map gobAnnotation) ∨
     (¬ Collected L1 (ms.heap a).id.span ∧ sm.get (ms.heap a).id.span = some a ∧
        (ms.heap a).anns = annotationsOf M (ms.heap a).id.span)) := by
  rcases ha with ha | ⟨s, h1, h2⟩
  · obtain ⟨e1, e2⟩ := A.node0 a ha
    rw [e1]
    exact ⟨declaredParent_append_of (B.decl a ha), Or.inl ⟨ha, B.old ha, e2⟩⟩
  · obtain ⟨p, g1, g2, g3⟩ := A.new s a h1 h2
    rw [g2]
    exact ⟨g1, Or.inr ⟨h1, h2, g3⟩⟩

theorem After.inj (B : Base L1 V0 id0 fix r0) (A : After ms t L1 M V0 id0 fix r0 sm r) {a b : Addr} (ha : Vis V0 L1 sm a)
    (hb : Vis V0 L1 sm b) (e : (ms.heap a).id.span = (ms.heap b).id.span) : a = b := by
  rcases (A.label B ha).2 with ⟨h1, h2, -⟩ | ⟨h1, h2, -⟩
  · rcases (A.label B hb).2 with ⟨g1, g2, -⟩ | ⟨g1, g2, -⟩
    · rw [(A.node0 a h1).1, (A.node0 b g1).1] at e
      exact B.uniq a b h1 g1 e
    · exact absurd (e ▸ h2) g1
  · rcases (A.label B hb).2 with ⟨g1, g2, -⟩ | ⟨g1, g2, -⟩
    · exact absurd (e ▸ g2) h1
    · rw [e, g2] at h2
      injection h2 with h2
      exact h2.symm

/-- The parent of a node other than the root. -/
theorem After.above (B : Base L1 V0 id0 fix r0) (A : After ms t L1 M V0 id0 fix r0 sm r) {a x : Addr} (ha : Vis V0 L1 sm a)
    (hx : x ∈ (ms.heap a).sub) :
    Vis V0 L1 sm x ∧ x ≠ r ∧
    ((¬ Collected (L1 ++ M) (ms.heap x).id.parent ∧ a = r) ∨
     ((ms.heap a).id.span = (ms.heap x).id.parent ∧
      ¬ (Collected L1 (ms.heap x).id.parent ∧ (¬ Collected L1 (ms.heap x).id.span ∨ (ms.heap x).id.span = (id0 r0).span)))) := by
  obtain ⟨h1, h2, h3⟩ := (A.p.mem a ha x).1 hx
  refine ⟨h1, h2, ?_⟩
  unfold place at h3
  cases hf : fix x with
  | some y =>
    rw [hf] at h3
    simp only [Option.getD_some] at h3
    subst h3
    obtain ⟨g1, g2, g3, g4⟩ := B.fixO x y hf
    right
    refine ⟨(A.p.fixV x y hf).2.2.symm, ?_⟩
    rintro ⟨-, h | h⟩
    · rw [(A.node0 x g1).1] at h
      exact h (B.old g1)
    · rw [(A.node0 x g1).1] at h
      exact g3 (B.uniq x r0 g1 B.root h)
  | none =>
    rw [hf] at h3
    cases hl : sm.get (ms.heap x).id.parent with
    | none =>
      simp only [hl, Option.getD_none] at h3
      exact Or.inl ⟨fun h => (A.dom _).1 h hl, h3.symm⟩
    | some y =>
      simp only [hl, Option.getD_none, Option.getD_some] at h3
      subst h3
      right
      refine ⟨A.p.lkV _ _ hl ha, ?_⟩
      rintro ⟨h, -⟩
      exact A.hidden _ _ h hl ha

/-- The heap with the children of the nodes that cannot be shown left out. -/
noncomputable def visHeap (ms : MemStore) (V : Addr → Prop) : Addr → Node := by
  classical exact fun a => if V a then ms.heap a else { ms.heap a with sub := [] }

theorem visHeap_pos (ms : MemStore) {V : Addr → Prop} {a : Addr} (h : V a) : visHeap ms V a = ms.heap a := by
  simp [visHeap, h]

theorem visHeap_neg (ms : MemStore) {V : Addr → Prop} {a : Addr} (h : ¬ V a) : (visHeap ms V a).sub = [] := by
  simp [visHeap, h]

theorem After.shown (B : Base L1 V0 id0 fix r0) (A : After ms t L1 M V0 id0 fix r0 sm r) :
    ∃ tr2, ms.view t = .found tr2 ∧ (tr2.spans.map fun s => s.id.span).Nodup ∧
      (tr2.span.id.span = (id0 r0).span ∨ ¬ Collected L1 tr2.span.id.span) ∧
      (¬ Collected (L1 ++ M) 0 → ∀ i, lastRoot (L1 ++ M) = some i → tr2.span.id.span = i) ∧
      (∀ s, (∃ sp ∈ tr2.spans, sp.id.span = s) ↔ Shown L1 M (id0 r0).span tr2.span.id.span s) ∧
      (∀ sp ∈ tr2.spans, sp.id.trace = t ∧ declaredParent (L1 ++ M) sp.id.span = some sp.id.parent ∧
        (Collected L1 sp.id.span → sp.annotations = (annotationsOf L1 sp.id.span).map gobAnnotation) ∧
        (¬ Collected L1 sp.id.span → sp.annotations = annotationsOf M sp.id.span) ∧
        (sp ≠ tr2.span →
          (Collected (L1 ++ M) sp.id.parent → ∃ p, (p, sp) ∈ tr2.edges ∧ p.id.span = sp.id.parent) ∧
          (¬ Collected (L1 ++ M) sp.id.parent → (tr2.span, sp) ∈ tr2.edges))) := by
  let V := Vis V0 L1 sm
  let h' := visHeap ms V
  let lab : Addr → Span := fun a => ⟨(h' a).id, (h' a).anns⟩
  let sub : Addr → List Addr := fun a => (h' a).sub
  have hpos : ∀ a, V a → h' a = ms.heap a := fun a ha => visHeap_pos ms ha
  have hmemV : ∀ a x, x ∈ sub a → V a := by
    intro a x hx
    by_cases ha : V a
    · exact ha
    · simp only [sub, h', visHeap_neg ms ha] at hx
      cases hx
  have habove : ∀ a x, x ∈ sub a → V x ∧ x ≠ r ∧
    ((¬ Collected (L1 ++ M) (ms.heap x).id.parent ∧ a = r) ∨
     ((ms.heap a).id.span = (ms.heap x).id.parent ∧
      ¬ (Collected L1 (ms.heap x).id.parent ∧ (¬ Collected L1 (ms.heap x).id.span ∨ (ms.heap x).id.span = (id0 r0).span)))) := by
    intro a x hx
    have ha := hmemV a x hx
    simp only [sub, hpos a ha] at hx
    exact A.above B ha hx
  have hWf : Forest.Wf sub r := by
    refine ⟨?_, ?_, ?_⟩
    · intro p
      by_cases hp : V p
      · simp only [sub, hpos p hp]; exact A.p.nodup p hp
      · simp only [sub, h', visHeap_neg ms hp]; exact List.nodup_nil
    · intro p q c h1 h2
      have hp := hmemV p c h1
      have hq := hmemV q c h2
      simp only [sub, hpos p hp] at h1
      simp only [sub, hpos q hq] at h2
      exact ((A.p.mem p hp c).1 h1).2.2.symm.trans ((A.p.mem q hq c).1 h2).2.2
    · intro p hp
      exact (habove p r hp).2.1 rfl
  have hsteps : ∀ n x, Forest.Steps sub n r x → V x := by
    intro n x hx
    cases n with
    | zero => cases hx; exact A.p.root
    | succ n => obtain ⟨p, -, hx⟩ := hx; exact (habove p x hx).1
  have hlt : ∀ n x, Forest.Steps sub n r x → n < ms.next := by
    intro n x hx
    have := hWf.depth_lt (List.range ms.next) (fun n x hx => List.mem_range.2 (A.isIn x (hsteps n x hx)).1) hx
    simpa using this
  obtain ⟨tr2, htr⟩ := Forest.unfold_isSome (sub := sub) lab ms.next r hlt
  have hview : ms.view t = .found tr2 := by
    rw [view_eq_of_get A.trace]
    have := unfoldNode_congr (h := ms.heap) (h' := h') V hpos (fun a ha c hc => (A.above B ha hc).1) ms.next r A.p.root
    rw [← this, unfoldNode_forest]
    exact htr
  have hspans : ∀ sp, sp ∈ tr2.spans ↔ ∃ n x, Forest.Steps sub n r x ∧ sp = lab x := by
    intro sp
    rw [Forest.unfold_spans _ htr, List.mem_map]
    constructor
    · rintro ⟨s, hs, rfl⟩
      obtain ⟨n, -, h⟩ := Forest.mem_pre.1 hs
      exact ⟨n, s, h, rfl⟩
    · rintro ⟨n, s, h, rfl⟩
      exact ⟨s, Forest.mem_pre.2 ⟨n, Forest.steps_lt_of_unfold _ htr h, h⟩, rfl⟩
  have hedges : ∀ p c n, Forest.Steps sub n r p → c ∈ sub p → (lab p, lab c) ∈ tr2.edges := by
    intro p c n h hc
    rw [Forest.unfold_edges _ htr, List.mem_map]
    exact ⟨(p, c), Forest.mem_preEdges.2 ⟨Forest.mem_pre.2 ⟨n, Forest.steps_lt_of_unfold _ htr h, h⟩, hc⟩, rfl⟩
  have hroot : tr2.span = lab r := Forest.unfold_span _ htr
  have hrid : tr2.span.id.span = (ms.heap r).id.span := by rw [hroot]; simp only [lab, hpos r A.p.root]
  have hlab : ∀ x, V x → lab x = ⟨(ms.heap x).id, (ms.heap x).anns⟩ := fun x hx => by simp only [lab, hpos x hx]
  refine ⟨tr2, hview, ?_, ?_, ?_, ?_, ?_⟩
  · rw [Forest.unfold_spans _ htr, List.map_map]
    apply List.Nodup.map_on
    · intro x hx y hy e
      obtain ⟨n, -, h1⟩ := Forest.mem_pre.1 hx
      obtain ⟨m, -, h2⟩ := Forest.mem_pre.1 hy
      simp only [Function.comp, hlab x (hsteps n x h1), hlab y (hsteps m y h2)] at e
      exact A.inj B (hsteps n x h1) (hsteps m y h2) e
    · exact hWf.nodup_pre (k := 0) rfl
  · rw [hrid]
    rcases A.rootO with h | ⟨s, h1, h2⟩
    · left
      rw [h, (A.node0 r0 B.root).1]
    · right
      obtain ⟨p, -, g, -⟩ := A.new s r h1 h2
      rw [g]
      exact h1
  · intro hz i hi
    rw [hrid]
    exact A.rootL (fun e he e0 => hz ⟨e, he, e0⟩) i hi
  · intro s
    rw [hrid]
    constructor
    · rintro ⟨sp, hsp, rfl⟩
      obtain ⟨n, x, hx, rfl⟩ := (hspans sp).1 hsp
      rw [hlab x (hsteps n x hx)]
      simp only
      clear hsp
      induction n generalizing x with
      | zero => cases hx; exact .root
      | succ n ih =>
        have hVx := hsteps _ x hx
        obtain ⟨p, hp, hx⟩ := hx
        have hd := (A.label B hVx).1
        rcases (habove p x hx).2.2 with ⟨g1, -⟩ | ⟨g1, g2⟩
        · exact .orphan hd g1
        · have := ih p hp
          rw [g1] at this
          exact .child hd this g2
    · intro hs
      have key : ∃ n x, Forest.Steps sub n r x ∧ (ms.heap x).id.span = s := by
        have hnode : ∀ s p, declaredParent (L1 ++ M) s = some p →
            (¬ Collected L1 p ∨ ∃ y, V0 y ∧ (id0 y).span = p) → ∃ x, V x ∧ (ms.heap x).id.span = s := by
          intro s p h1 h2
          by_cases ho : Collected L1 s
          · obtain ⟨q, hq⟩ := Option.isSome_iff_exists.1 ((collected_iff _ _).1 ho)
            have := declaredParent_append_of (M := M) hq
            rw [h1] at this
            injection this with this
            subst this
            obtain ⟨x, hx, e⟩ := B.has s p hq h2
            exact ⟨x, Or.inl hx, by rw [(A.node0 x hx).1]; exact e⟩
          · have : sm.get s ≠ none := (A.dom s).1 ((collected_iff _ _).2 (by rw [h1]; rfl))
            obtain ⟨a, ha⟩ := Option.ne_none_iff_exists'.1 this
            obtain ⟨q, -, g, -⟩ := A.new s a ho ha
            exact ⟨a, Or.inr ⟨s, ho, ha⟩, by rw [g]⟩
        have hput : ∀ x y, V x → V y → x ≠ r → place fix sm.get (fun a => (ms.heap a).id.parent) r x = y → x ∈ sub y := by
          intro x y hx hy h1 h2
          simp only [sub, hpos y hy]
          exact (A.p.mem y hy x).2 ⟨hx, h1, h2⟩
        induction hs with
        | root => exact ⟨0, r, rfl, rfl⟩
        | @orphan s p h1 h2 =>
          have hn1 : ¬ Collected L1 p := fun h => h2 ((collected_append _ _ _).2 (Or.inl h))
          obtain ⟨x, hx, e⟩ := hnode s p h1 (Or.inl hn1)
          by_cases er : x = r
          · exact ⟨0, r, rfl, er ▸ e⟩
          · refine ⟨1, x, ⟨r, rfl, hput x r hx A.p.root er ?_⟩, e⟩
            have hpar : (ms.heap x).id.parent = p := by
              have := (A.label B hx).1
              rw [e, h1] at this
              injection this with this
              exact this.symm
            unfold place
            cases hf : fix x with
            | some y =>
              obtain ⟨g1, g2, g3, g4⟩ := B.fixO x y hf
              exfalso
              rw [← (A.node0 x g1).1, hpar] at g4
              exact hn1 (g4 ▸ B.old g2)
            | none =>
              simp only [hpar]
              cases hl : sm.get p with
              | none => rfl
              | some z => exact absurd ((A.dom p).2 (by rw [hl]; simp)) h2
        | @child s p h1 _ h3 ih =>
          obtain ⟨n, y, hy, ey⟩ := ih
          have hVy := hsteps n y hy
          have hnd : ¬ Collected L1 p ∨ ∃ y, V0 y ∧ (id0 y).span = p := by
            by_cases ho : Collected L1 p
            · right
              rcases (A.label B hVy).2 with ⟨g1, -⟩ | ⟨g1, -⟩
              · exact ⟨y, g1, by rw [← (A.node0 y g1).1]; exact ey⟩
              · rw [ey] at g1; exact absurd ho g1
            · exact Or.inl ho
          obtain ⟨x, hx, e⟩ := hnode s p h1 hnd
          by_cases er : x = r
          · exact ⟨0, r, rfl, er ▸ e⟩
          · refine ⟨n + 1, x, ⟨y, hy, hput x y hx hVy er ?_⟩, e⟩
            have hpar : (ms.heap x).id.parent = p := by
              have := (A.label B hx).1
              rw [e, h1] at this
              injection this with this
              exact this.symm
            unfold place
            cases hf : fix x with
            | some z =>
              obtain ⟨g1, g2, g3⟩ := A.p.fixV x z hf
              apply A.inj B g2 hVy
              rw [ey, ← hpar]
              exact g3.symm
            | none =>
              simp only [hpar]
              have hpn : ¬ Collected L1 p := by
                intro ho
                apply h3
                refine ⟨ho, ?_⟩
                by_cases hso : Collected L1 s
                · right
                  rcases (A.label B hx).2 with ⟨g1, -⟩ | ⟨g1, -⟩
                  · by_cases exr : x = r0
                    · rw [← e, exr, (A.node0 r0 B.root).1]
                    · exfalso
                      apply B.fixN x g1 exr hf
                      rw [← (A.node0 x g1).1, hpar]
                      exact ho
                  · rw [e] at g1; exact absurd hso g1
                · exact Or.inl hso
              have hc : Collected (L1 ++ M) p := by
                rw [collected_iff, ← ey, (A.label B hVy).1]; rfl
              obtain ⟨z, hz⟩ := Option.ne_none_iff_exists'.1 ((A.dom p).1 hc)
              rw [hz]
              simp only [Option.getD_none, Option.getD_some]
              have hVz : V z := Or.inr ⟨p, hpn, hz⟩
              exact A.inj B hVz hVy ((A.p.lkV p z hz hVz).trans ey.symm)
      obtain ⟨n, x, hx, e⟩ := key
      exact ⟨lab x, (hspans _).2 ⟨n, x, hx, rfl⟩, by rw [hlab x (hsteps n x hx)]; exact e⟩
  · intro sp hsp
    obtain ⟨n, x, hx, rfl⟩ := (hspans sp).1 hsp
    have hVx := hsteps n x hx
    have hl := A.label B hVx
    have hlx := hlab x hVx
    refine ⟨by rw [hlx]; exact (A.isIn x hVx).2, by rw [hlx]; exact hl.1, ?_, ?_, ?_⟩
    · rw [hlx]
      intro ho
      rcases hl.2 with ⟨-, -, g⟩ | ⟨g, -⟩
      · exact g
      · exact absurd ho g
    · rw [hlx]
      intro ho
      rcases hl.2 with ⟨-, g, -⟩ | ⟨-, -, g⟩
      · exact absurd g ho
      · exact g
    · intro hne
      cases n with
      | zero => cases hx; exact absurd hroot.symm hne
      | succ n =>
        obtain ⟨p, hp, hx⟩ := hx
        have he := hedges p x n hp hx
        have ha := (habove p x hx).2.2
        refine ⟨fun hc => ⟨lab p, he, ?_⟩, fun hc => ?_⟩
        · rw [hlx] at hc ⊢
          rw [hlab p (hmemV p x hx)]
          rcases ha with ⟨g, -⟩ | ⟨g, -⟩
          · exact absurd hc g
          · exact g
        · rw [hlx] at hc
          rcases ha with ⟨-, g⟩ | ⟨g, -⟩
          · rw [hroot, ← g]; exact he
          · exfalso
            apply hc
            show Collected (L1 ++ M) (ms.heap x).id.parent
            rw [← g, collected_iff, (A.label B (hmemV p x hx)).1]
            rfl

end

end Appdash
