import Verif.Proofs.RestartShown
import Verif.Properties.Persist

/-!
# Property C131: a trace that is collected on both sides of a restart

`MemStore.new.run ops = some ms` says that `ms` is the store after the calls `ops`; `ms.Writes d` that `Write` then writes
`d`; `MemStore.new.readFrom (some d)` is the store of the new process; `ops'` are the calls it then gets.
-/

namespace Appdash

open Spec

/-- A history used by the examples: span 5 waits for its parent 4, span 8 for its parent 7. -/
def beforeRestart : List StoreOp :=
  [.collect ⟨1, 1, 0⟩ [], .collect ⟨1, 2, 1⟩ [⟨b!"k", some b!"v"⟩], .collect ⟨1, 5, 4⟩ [], .collect ⟨1, 8, 7⟩ []]

/-- What follows: a child and an annotation of an old span, two parents that were waited for (one of them below an old
span), and a child of a new span. -/
def afterRestart : List StoreOp :=
  [.collect ⟨1, 3, 2⟩ [], .collect ⟨1, 2, 1⟩ [⟨b!"l", some b!"w"⟩], .collect ⟨1, 4, 9⟩ [⟨b!"m", some b!"x"⟩],
   .collect ⟨1, 7, 2⟩ [], .collect ⟨1, 6, 4⟩ []]

/-- **C131**.  Of a trace that was in the store when it was saved and is not deleted afterwards, exactly the spans
described by `Shown` are shown, each once.  Each is below its declared parent if that was ever collected, and below the
root otherwise.  A span from before the restart has the annotations it had then, one from after the restart has all of its
own.  The root is the one of the save or a span first collected later, and is the parentless span that came last if there
is one. -/
theorem restart_shown {ops : List StoreOp} {ms : MemStore} (h : MemStore.new.run ops = some ms) {d : GobData}
    (hw : ms.Writes d) {t : ID} {tr : Tree} (hv : ms.view t = .found tr) (ops' : List StoreOp) (hd : ¬ Deletes t ops') :
    ∃ ms2 tr2, (MemStore.new.readFrom (some d)).1.run ops' = some ms2 ∧ ms2.view t = .found tr2 ∧
      (tr2.spans.map fun s => s.id.span).Nodup ∧
      (∀ s, (∃ sp ∈ tr2.spans, sp.id.span = s) ↔
        Shown (live t ops) (live t ops') tr.span.id.span tr2.span.id.span s) ∧
      (∀ sp ∈ tr2.spans, sp.id.trace = t ∧
        declaredParent (live t ops ++ live t ops') sp.id.span = some sp.id.parent ∧
        (Collected (live t ops) sp.id.span →
          List.Forall₂ SameAnnotation (annotationsOf (live t ops) sp.id.span) sp.annotations) ∧
        (¬ Collected (live t ops) sp.id.span → sp.annotations = annotationsOf (live t ops') sp.id.span) ∧
        (sp ≠ tr2.span →
          (Collected (live t ops ++ live t ops') sp.id.parent →
            ∃ p, (p, sp) ∈ tr2.edges ∧ p.id.span = sp.id.parent) ∧
          (¬ Collected (live t ops ++ live t ops') sp.id.parent → (tr2.span, sp) ∈ tr2.edges))) ∧
      (tr2.span.id.span = tr.span.id.span ∨ ¬ Collected (live t ops) tr2.span.id.span) ∧
      (¬ Collected (live t ops ++ live t ops') 0 → ∀ r, lastRoot (live t ops ++ live t ops') = some r →
        tr2.span.id.span = r) := by
  obtain ⟨V0, id0, fix, r0, sm, B, hr, A⟩ := readFrom_after h hw hv
  obtain ⟨ms2, sm2, r2, e2, A2⟩ := After.run B ops' A hd
  obtain ⟨tr2, v1, v2, v3, v4, v5, v6⟩ := A2.shown B
  rw [hr] at v3 v5
  refine ⟨ms2, tr2, e2, v1, v2, v5, ?_, v3, v4⟩
  intro sp hsp
  obtain ⟨g1, g2, g3, g4, g5⟩ := v6 sp hsp
  refine ⟨g1, g2, fun ho => ?_, g4, g5⟩
  rw [g3 ho]
  exact forall₂_map_right gobAnnotation_same _

example : (MemStore.new.run beforeRestart).map (fun ms => ms.view 1) =
    some (.found (.node ⟨⟨1, 1, 0⟩, []⟩ [.node ⟨⟨1, 2, 1⟩, [⟨b!"k", some b!"v"⟩]⟩ [], .node ⟨⟨1, 5, 4⟩, []⟩ [],
      .node ⟨⟨1, 8, 7⟩, []⟩ []])) := by decide_cbv

/-- The case of `beforeRestart` and `afterRestart`: spans 3, 7 and 8 and the annotation `l` are not shown. -/
theorem restart_sample :
    ((MemStore.new.run beforeRestart).bind fun ms => (ms.write 4).bind fun d =>
      ((MemStore.new.readFrom (some d)).1.run afterRestart).map fun ms2 => ms2.view 1) =
      some (.found (.node ⟨⟨1, 1, 0⟩, []⟩ [.node ⟨⟨1, 2, 1⟩, [⟨b!"k", some b!"v"⟩]⟩ [],
        .node ⟨⟨1, 4, 9⟩, [⟨b!"m", some b!"x"⟩]⟩ [.node ⟨⟨1, 5, 4⟩, []⟩ [], .node ⟨⟨1, 6, 4⟩, []⟩ []]])) := by
  decide_cbv

example : ¬ Deletes 1 afterRestart := by
  rintro ⟨ids, h, -⟩
  simp [afterRestart] at h

/-- **C131** (what is lost).  A span first collected after the restart below a span collected before it is not shown,
unless it is the root; and neither is anything whose declared parents lead up to a span that is not shown and is not the
root. -/
theorem restart_hides {before after : List Entry} {oldRoot root s p : ID} (hs : s ≠ root)
    (hp : declaredParent (before ++ after) s = some p) (hc : Collected (before ++ after) p) :
    ((Collected before p ∧ ¬ Collected before s) → ¬ Shown before after oldRoot root s) ∧
    (¬ Shown before after oldRoot root p → ¬ Shown before after oldRoot root s) := by
  constructor
  · rintro ⟨h1, h2⟩ hsh
    cases hsh with
    | root => exact hs rfl
    | orphan g1 g2 => rw [hp] at g1; injection g1 with g1; subst g1; exact g2 hc
    | child g1 _ g3 => rw [hp] at g1; injection g1 with g1; subst g1; exact g3 ⟨h1, Or.inl h2⟩
  · intro hn hsh
    cases hsh with
    | root => exact hs rfl
    | orphan g1 g2 => rw [hp] at g1; injection g1 with g1; subst g1; exact g2 hc
    | child g1 g2 _ => rw [hp] at g1; injection g1 with g1; subst g1; exact hn g2

/-- Span 3 of the sample is hidden, and so is span 8, whose parent 7 is. -/
example : ¬ Shown (live 1 beforeRestart) (live 1 afterRestart) 1 1 3 ∧
    ¬ Shown (live 1 beforeRestart) (live 1 afterRestart) 1 1 8 := by
  refine ⟨(restart_hides (p := 2) (by decide) (by decide) (by decide)).1 (by decide), ?_⟩
  refine (restart_hides (p := 7) (by decide) (by decide) (by decide)).2 ?_
  exact (restart_hides (p := 2) (by decide) (by decide) (by decide)).1 (by decide)

theorem annotationsOf_both (L M : List Entry) (s : ID) : annotationsOf (L ++ M) s = annotationsOf L s ++ annotationsOf M s := by
  induction L with
  | nil => rfl
  | cons e L ih => simp [annotationsOf, ih]

/-- **C131** (when nothing is lost).  Suppose the trace has a parentless span (and no span with ID 0), no span from before
the restart is collected again after it, no span first collected after it has a parent from before it, and the span shown
as root at the save has no collected parent.  Then every span is shown that would be shown without a restart, and with the
same annotations up to empty values. -/
theorem restart_harmless {ops ops' : List StoreOp} {ms ms1 : MemStore} (h : MemStore.new.run ops = some ms) {d : GobData}
    (hw : ms.Writes d) {t : ID} {tr : Tree} (hv : ms.view t = .found tr) (hd : ¬ Deletes t ops')
    (h1 : MemStore.new.run (ops ++ ops') = some ms1)
    (hz : ¬ Collected (live t ops ++ live t ops') 0) (hr : ∃ r, declaredParent (live t ops ++ live t ops') r = some 0)
    (hagain : ∀ s, Collected (live t ops) s → ¬ Collected (live t ops') s)
    (hbelow : ∀ s p, declaredParent (live t ops') s = some p → ¬ Collected (live t ops) p)
    (hroot : ∀ p, declaredParent (live t ops) tr.span.id.span = some p → ¬ Collected (live t ops) p) :
    ∃ tr1 ms2 tr2, ms1.view t = .found tr1 ∧ (MemStore.new.readFrom (some d)).1.run ops' = some ms2 ∧
      ms2.view t = .found tr2 ∧ tr2.span.id = tr1.span.id ∧
      (∀ i, (∃ sp ∈ tr2.spans, sp.id = i) ↔ ∃ sp ∈ tr1.spans, sp.id = i) ∧
      (∀ sp1 ∈ tr1.spans, ∀ sp2 ∈ tr2.spans, sp1.id = sp2.id →
        List.Forall₂ SameAnnotation sp1.annotations sp2.annotations) := by
  obtain ⟨ms2, tr2, e2, v2, -, hsh, hsp, -, hlr⟩ := restart_shown h hw hv ops' hd
  have hl : live t (ops ++ ops') = live t ops ++ live t ops' := by
    have key : ∀ (o : List StoreOp) (L : List Entry), ¬ Deletes t o → o.foldl (liveStep t) L = L ++ o.foldl (liveStep t) [] := by
      intro o
      induction o with
      | nil => intro L _; simp
      | cons op o ih =>
        intro L hdel
        have hdel' : ¬ Deletes t o := fun ⟨ids, g1, g2⟩ => hdel ⟨ids, by simp [g1], g2⟩
        rw [List.foldl_cons, List.foldl_cons, ih _ hdel', ih (liveStep t [] op) hdel']
        cases op with
        | collect id as => simp only [liveStep]; split <;> simp
        | delete ids =>
          have : t ∉ ids := fun hm => hdel ⟨ids, by simp, hm⟩
          simp [liveStep, this]
    unfold live
    rw [List.foldl_append]
    exact key ops' _ hd
  have hz1 : ¬ Collected (live t (ops ++ ops')) 0 := by rw [hl]; exact hz
  obtain ⟨tr1, v1, hpres⟩ := spans_present_iff h1 t hz1 (by rw [hl]; exact hr)
  rw [hl] at hpres
  have hdecl1 := (span_under_declared_parent h1 v1).2
  obtain ⟨T, -, H, hu⟩ := run_view_found h1 v1
  have hann1 : ∀ sp ∈ tr1.spans, sp.id.trace = t ∧ sp.annotations = annotationsOf (live t ops ++ live t ops') sp.id.span := by
    intro sp hs
    obtain ⟨n, s, hst, rfl⟩ := (mem_spans_iff hu sp).1 hs
    obtain ⟨p, hp, e⟩ := label_eq H (t := t) hst
    rw [e, hl]
    exact ⟨rfl, rfl⟩
  have hcut : ∀ s p, declaredParent (live t ops ++ live t ops') s = some p →
      ¬ (Collected (live t ops) p ∧ (¬ Collected (live t ops) s ∨ s = tr.span.id.span)) := by
    rintro s p hs ⟨hp, hn | rfl⟩
    · have : declaredParent (live t ops') s = some p := by
        have key : ∀ L : List Entry, ¬ Collected L s → declaredParent (L ++ live t ops') s = declaredParent (live t ops') s := by
          intro L
          induction L with
          | nil => intro _; rfl
          | cons e L ih =>
            intro hc
            have e1 : e.1.span ≠ s := fun he => hc ⟨e, by simp, he⟩
            simp only [List.cons_append, declaredParent, if_neg e1]
            exact ih (fun ⟨x, hx, he⟩ => hc ⟨x, by simp [hx], he⟩)
        rw [← key _ hn]
        exact hs
      exact hbelow s p this hp
    · obtain ⟨T0, -, H0, hu0⟩ := run_view_found h hv
      have hroot0 : tr.span = T0.label t T0.root := Forest.unfold_span _ hu0
      have hc0 : Collected (live t ops) tr.span.id.span := by
        rw [collected_iff, ← H0.2.1, hroot0]
        exact H0.2.2.2.1.root_in
      obtain ⟨q, hq⟩ := Option.isSome_iff_exists.1 ((collected_iff _ _).1 hc0)
      have := declaredParent_append_of (M := live t ops') hq
      rw [hs] at this
      injection this with this
      subst this
      exact hroot p hq hp
  obtain ⟨r, hlast⟩ := lastRoot_of_parentless hr
  have hr2 := hlr hz r hlast
  have hrp := lastRoot_parent _ _ hlast
  have hr1 : tr1.span.id.span = r := by
    have e : tr1.span = T.label t T.root := Forest.unfold_span _ hu
    rw [e]
    exact H.2.2.2.2 (fun e he e0 => hz1 ⟨e, he, e0⟩) r (by rw [hl]; exact hlast)
  have hshown : ∀ s, Shown (live t ops) (live t ops') tr.span.id.span tr2.span.id.span s ↔
      Collected (live t ops ++ live t ops') s ∧ ¬ RunsIntoCycle (live t ops ++ live t ops') s := by
    intro s
    rw [hr2]
    constructor
    · intro hs
      have key : Collected (live t ops ++ live t ops') s ∧ Good (live t ops ++ live t ops') s := by
        induction hs with
        | root =>
          refine ⟨(collected_iff _ _).2 (by rw [hrp]; rfl), Good.of_parent ?_⟩
          intro q g1 g2
          rw [hrp] at g1
          injection g1 with g1
          exact absurd (g1 ▸ g2) hz
        | orphan g1 g2 =>
          refine ⟨(collected_iff _ _).2 (by rw [g1]; rfl), Good.of_parent ?_⟩
          intro q g3 g4
          rw [g1] at g3
          injection g3 with g3
          exact absurd (g3 ▸ g4) g2
        | child g1 _ _ ih =>
          refine ⟨(collected_iff _ _).2 (by rw [g1]; rfl), Good.of_parent ?_⟩
          intro q g3 _
          rw [g1] at g3
          injection g3 with g3
          exact g3 ▸ ih.2
      exact ⟨key.1, fun ⟨a, g1, g2⟩ => key.2 a g1 g2⟩
    · rintro ⟨hc, hg⟩
      have hgood : Good (live t ops ++ live t ops') s := fun a g1 g2 => hg ⟨a, g1, g2⟩
      have key : ∀ x : {x : ID // x ∈ (live t ops ++ live t ops').map (fun e => e.1.span) ∧ Good (live t ops ++ live t ops') x},
          Shown (live t ops) (live t ops') tr.span.id.span r x.1 := by
        intro x
        induction x using (good_wf (live t ops ++ live t ops')).induction with
        | _ x ih =>
          obtain ⟨s, hs, hg⟩ := x
          have hcs : Collected (live t ops ++ live t ops') s := by
            obtain ⟨e, he, h⟩ := List.mem_map.1 hs
            exact ⟨e, he, h⟩
          obtain ⟨p, hp⟩ := Option.isSome_iff_exists.1 ((collected_iff _ _).1 hcs)
          by_cases hpc : Collected (live t ops ++ live t ops') p
          · have hpm : p ∈ (live t ops ++ live t ops').map (fun e => e.1.span) := by
              obtain ⟨e, he, h⟩ := hpc
              exact List.mem_map.2 ⟨e, he, h⟩
            exact .child hp (ih ⟨p, hpm, hg.parent ⟨hp, hpc⟩⟩ (.base ⟨hp, hpc⟩)) (hcut s p hp)
          · exact .orphan hp hpc
      have hm : s ∈ (live t ops ++ live t ops').map (fun e => e.1.span) := by
        obtain ⟨e, he, h⟩ := hc
        exact List.mem_map.2 ⟨e, he, h⟩
      exact key ⟨s, hm, hgood⟩
  have hid : ∀ sp1 ∈ tr1.spans, ∀ sp2 ∈ tr2.spans, sp1.id.span = sp2.id.span → sp1.id = sp2.id := by
    intro sp1 m1 sp2 m2 e
    have g1 := (hann1 sp1 m1).1
    have g2 := (hsp sp2 m2).1
    have g3 := (hdecl1 sp1 m1).1
    have g4 := (hsp sp2 m2).2.1
    rw [hl, e, g4] at g3
    injection g3 with g3
    cases h1 : sp1.id
    cases h2 : sp2.id
    simp_all
  refine ⟨tr1, ms2, tr2, v1, e2, v2, ?_, ?_, ?_⟩
  · exact (hid _ (span_mem tr1) _ (span_mem tr2) (hr1.trans hr2.symm)).symm
  · intro i
    constructor
    · rintro ⟨sp, m, rfl⟩
      have := (hsh sp.id.span).1 ⟨sp, m, rfl⟩
      obtain ⟨sp1, m1, e⟩ := (hpres sp.id.span).2 ((hshown _).1 this)
      exact ⟨sp1, m1, hid sp1 m1 sp m e⟩
    · rintro ⟨sp, m, rfl⟩
      have := (hpres sp.id.span).1 ⟨sp, m, rfl⟩
      obtain ⟨sp1, m1, e⟩ := (hsh sp.id.span).2 ((hshown _).2 this)
      exact ⟨sp1, m1, (hid sp m sp1 m1 e.symm).symm⟩
  · intro sp1 m1 sp2 m2 e
    have g1 := (hann1 sp1 m1).2
    obtain ⟨-, -, g2, g3, -⟩ := hsp sp2 m2
    rw [g1, e, annotationsOf_both]
    by_cases ho : Collected (live t ops) sp2.id.span
    · rw [annotationsOf_not_collected _ _ (hagain _ ho), List.append_nil]
      exact g2 ho
    · rw [annotationsOf_not_collected _ _ ho, List.nil_append, g3 ho]
      exact List.forall₂_same.2 (fun a _ => ⟨rfl, rfl⟩)

/-- A trace that meets the conditions of `restart_harmless`: the root arrives after the restart. -/
example : (∃ r, declaredParent (live 1 [.collect ⟨1, 3, 2⟩ []] ++ live 1 [.collect ⟨1, 2, 1⟩ [], .collect ⟨1, 1, 0⟩ []]) r = some 0) ∧
    (¬ Collected (live 1 [.collect ⟨1, 3, 2⟩ []] ++ live 1 [.collect ⟨1, 2, 1⟩ [], .collect ⟨1, 1, 0⟩ []]) 0) ∧
    ((MemStore.new.run [.collect ⟨1, 3, 2⟩ []]).bind fun ms => (ms.write 4).bind fun d =>
      ((MemStore.new.readFrom (some d)).1.run [.collect ⟨1, 2, 1⟩ [], .collect ⟨1, 1, 0⟩ []]).map fun ms2 => ms2.view 1) =
      some (.found (.node ⟨⟨1, 1, 0⟩, []⟩ [.node ⟨⟨1, 2, 1⟩, []⟩ [.node ⟨⟨1, 3, 2⟩, []⟩ []]])) := by
  refine ⟨⟨1, by decide⟩, by decide, by decide_cbv⟩

end Appdash
