import Verif.Proofs.ReadingGrow
import Verif.Properties.Reading

/-!
# Property C145 in the middle of calls

The theorems of `Verif.Properties.Reading` let the reader see the store between calls.  Here it sees every state that a call makes.
-/

namespace Appdash

open Spec

/-- The last state that a series of calls makes is the one that the model of the calls gives. -/
theorem moments_end {ms ms' : MemStore} {ops : List StoreOp} (h : ms.run ops = some ms') : (ms.moments ops).getLastD ms = ms' :=
  moments_last h

-- Collecting a span's parent makes several states: the new span is registered, put below its own parent, gets the child, and the root
-- loses it.
example : ((MemStore.new.run repeatBefore).map fun ms => (ms.moments [.collect ⟨7, 2, 4⟩ []]).map fun m => (m.heap 0).sub) =
    some [[1, 2], [1, 2], [1, 2], [1, 2], [2]] := by decide_cbv

/-- **C145** (between calls).  Whatever a reader can see between the calls, it can see during them. -/
theorem reading_during {ops' : List StoreOp} {ms ms' : MemStore} {t : ID} {tr : Tree} (hr : ms.ReadWhile t ops' tr ms') :
    ms.WalkDuring t ops' tr := by
  obtain ⟨a, ha, hr⟩ := hr
  have := reads_walks hr []
  rw [List.append_nil] at this
  exact ⟨a, _, ha, this⟩

/-- **C145** (what is read during calls was collected).  Every span that is read belongs to the trace and has been collected, or is being
collected, with the parent shown; its annotations are those that had been collected for it up to some moment of the reading.  A span is
below its parent, or its parent had not been collected when the trace was fetched. -/
theorem reading_during_collected_partial {ops ops' : List StoreOp} {ms : MemStore} (h : MemStore.new.run ops = some ms) {t : ID} {tr : Tree}
    (hr : ms.WalkDuring t ops' tr) (hk : Keeps t ops') :
    (∀ sp ∈ tr.spans, ∃ L, live t ops <+: L ∧ L <+: live t (ops ++ ops') ∧ sp.id.trace = t ∧
      declaredParent L sp.id.span = some sp.id.parent ∧ sp.annotations = annotationsOf L sp.id.span) ∧
    ∀ a b, (a, b) ∈ tr.edges → b.id.parent = a.id.span ∨ ¬ Collected (live t ops) b.id.parent := by
  obtain ⟨a, l, ha, hw⟩ := hr
  obtain ⟨sm, T, S, H, e⟩ := readWhile_stands h ha
  have HS : HSim (AStore.empty.run ops) (fun t => live t ops) := (show HSim AStore.empty (fun _ => []) from fun _ => rfl).run ops
  have tr0 : Trail t (live t ops) (live t (ops ++ ops')) (live t ops) sm (ms :: ms.moments ops') := by
    rw [live_append _ _ hk]
    exact .cons (List.prefix_refl _) (List.prefix_append _ _) (fun _ _ h => h) (weak_of_stands S H fun _ h => h)
      (moments_trail ops' S HS (fun _ h => h) hk (List.prefix_refl _))
  obtain ⟨h1, h2, -⟩ := walks_sound hw tr0 (by simpa using ⟨_, e⟩)
  constructor
  · intro sp hsp
    exact h1 sp (by rw [mem_spansList_cons]; exact Or.inl hsp)
  · intro a b hab
    exact h2 a b (by rw [Tree.edgesList]; exact List.mem_append_left _ hab)

example : ∃ ms, MemStore.new.run repeatBefore = some ms ∧ ms.WalkDuring 7 [.collect ⟨7, 2, 4⟩ []] repeatRead := by
  obtain ⟨ms, ms', h, hr⟩ := reading_repeats
  exact ⟨ms, h, reading_during hr⟩

/-- **C145** (during calls for other traces).  If nothing is collected for the trace meanwhile, it is read as it was when it was fetched,
also in the middle of calls. -/
theorem reading_during_undisturbed_partial {ops ops' : List StoreOp} {ms : MemStore} (h : MemStore.new.run ops = some ms) {t : ID} {tr : Tree}
    (hr : ms.WalkDuring t ops' tr) (hk : Keeps t ops') (hops : ∀ id as, StoreOp.collect id as ∈ ops' → id.trace ≠ t) :
    ms.view t = .found tr := by
  obtain ⟨a, l, ha, hw⟩ := hr
  obtain ⟨sm, T, S, H, e⟩ := readWhile_stands h ha
  have HS : HSim (AStore.empty.run ops) (fun t => live t ops) := (show HSim AStore.empty (fun _ => []) from fun _ => rfl).run ops
  have R := S.rep
  have hv : ∃ tr', ms.view t = .found tr' ∧ unfoldNode ms.heap ms.next a = some tr' := by
    have St := S.sim t
    rw [S.at_] at St
    obtain ⟨tr', h1, -⟩ := view_found St H.2.2.2.1
    refine ⟨tr', h1, ?_⟩
    simp only [MemStore.view, ha] at h1
    split at h1
    · cases h1
    · rename_i hu
      injection h1 with h1
      rw [hu, h1]
  obtain ⟨tr', h1, h2⟩ := hv
  have := walks_frame (h₀ := ms.heap) (P := fun x => ∃ s, sm.get s = some x)
    (fun x ⟨s, hs⟩ c hc => by
      rw [R.sub s x hs, List.mem_map] at hc
      obtain ⟨c', hc', rfl⟩ := hc
      exact ⟨c', R.get_of_dom (R.closed s c' hc')⟩)
    hw (by
      intro m hm x ⟨s, hs⟩
      rcases List.mem_cons.1 hm with rfl | hm
      · rfl
      · exact moments_frame ops' S HS hk hops m hm s x hs)
    (by simpa using ⟨_, e⟩) ms.next [tr'] (by simp [h2])
  injection this with this
  rw [h1, this]

example : ∃ ms, MemStore.new.run repeatBefore = some ms ∧
    ms.WalkDuring 7 [.collect ⟨8, 5, 4⟩ [], .collect ⟨8, 1, 0⟩ []]
      (.node ⟨⟨7, 1, 0⟩, []⟩ [.node ⟨⟨7, 3, 2⟩, []⟩ [], .node ⟨⟨7, 4, 1⟩, []⟩ []]) := by
  obtain ⟨ms, ms', h, hr⟩ := reading_sample (before := repeatBefore) (calls := [.collect ⟨8, 5, 4⟩ [], .collect ⟨8, 1, 0⟩ []]) (t := 7)
    (tr := .node ⟨⟨7, 1, 0⟩, []⟩ [.node ⟨⟨7, 3, 2⟩, []⟩ [], .node ⟨⟨7, 4, 1⟩, []⟩ []]) (a := 0) (fuel := 3) (by decide_cbv) (by decide_cbv)
  exact ⟨ms, h, reading_during hr⟩

/-- **C145** (no span is lost during calls while the root stays).  `reading_complete_partial` also holds of a reader that sees the states in
the middle of the calls. -/
theorem reading_during_complete_partial {ops ops' : List StoreOp} {ms : MemStore} (h : MemStore.new.run ops = some ms) {t : ID}
    {tr before : Tree} (hb : ms.view t = .found before) (hr : ms.WalkDuring t ops' tr) (hk : Keeps t ops')
    (hops : ∀ id as, StoreOp.collect id as ∈ ops' → id.trace = t →
      Collected (live t ops) id.span ∨ (id.parent ≠ 0 ∧ id.span ≠ before.span.id.parent))
    {s : ID} (hs : Collected (live t ops) s) (hc : ¬ RunsIntoCycle (live t (ops ++ ops')) s) : ∃ sp ∈ tr.spans, sp.id.span = s := by
  obtain ⟨a, l, ha, hw⟩ := hr
  obtain ⟨sm, T, S, H, e⟩ := readWhile_stands h ha
  have HS : HSim (AStore.empty.run ops) (fun t => live t ops) := (show HSim AStore.empty (fun _ => []) from fun _ => rfl).run ops
  have hd := H.2.2.2.1.root_in
  have hroot := root_parent S H hb
  have hkr : KeepsRoot T (live t ops') := by
    intro f hf
    obtain ⟨as, h1, h2⟩ := mem_live hf
    rcases hops _ _ h1 h2 with h | ⟨h, h'⟩
    · left
      rw [H.2.1, ← collected_iff]
      exact h
    · right
      refine ⟨h, ?_⟩
      rw [hroot]
      intro e
      injection e with e
      exact h' e.symm
  have hg : Good (live t ops ++ live t ops') s := by
    intro a ha hh
    rw [← live_append _ _ hk] at ha hh
    exact hc ⟨a, ha, hh⟩
  obtain ⟨y, hy⟩ : ∃ y, sm.get s = some y := by
    rw [← Option.isSome_iff_exists, ← S.rep.dom, H.2.1, ← collected_iff]
    exact hs
  have hY : ∀ z, z = y → ∃ s, sm.get s = some z ∧ Collected (live t ops) s ∧ Good (live t ops ++ live t ops') s := by
    rintro z rfl
    exact ⟨s, hy, hs, hg⟩
  have R := ready_of_stands (K := live t ops') S H e hY
  have G : GrowTrail a (fun z => z = y) ms.heap sm (ms :: ms.moments ops') :=
    .cons (fun _ _ h => h) R.nodes (fun _ _ _ _ h => h) R.reach (moments_grow ops' S HS hk hkr e rfl hY)
  exact walks_root hw G ⟨_, e⟩ rfl hy

-- In `reading_repeats`, where the new span 2 takes the span 3 from the root, no span is lost.
example : ∃ ms before, MemStore.new.run repeatBefore = some ms ∧ ms.view 7 = .found before ∧
    ms.WalkDuring 7 [.collect ⟨7, 2, 4⟩ []] repeatRead ∧ Keeps 7 [.collect ⟨7, 2, 4⟩ []] ∧ before.span.id.parent = 0 ∧
    Collected (live 7 repeatBefore) 3 ∧ ¬ RunsIntoCycle (live 7 (repeatBefore ++ [.collect ⟨7, 2, 4⟩ []])) 3 := by
  obtain ⟨ms, ms', h, hr⟩ := reading_repeats
  have e : (MemStore.new.run repeatBefore).map (fun ms => ms.view 7) =
      some (.found (.node ⟨⟨7, 1, 0⟩, []⟩ [.node ⟨⟨7, 3, 2⟩, []⟩ [], .node ⟨⟨7, 4, 1⟩, []⟩ []])) := by decide_cbv
  rw [h] at e
  injection e with e
  refine ⟨ms, _, h, e, reading_during hr, by intro ids h; simp at h, rfl, by decide, ?_⟩
  rintro ⟨a, h1, h2⟩
  have g : ∀ {s q : ID}, declaredParent (live 7 (repeatBefore ++ [.collect ⟨7, 2, 4⟩ []])) s = some q →
      Good (live 7 (repeatBefore ++ [.collect ⟨7, 2, 4⟩ []])) q → Good (live 7 (repeatBefore ++ [.collect ⟨7, 2, 4⟩ []])) s := by
    intro s q hq hg
    refine Good.of_parent fun q' hq' _ => ?_
    rw [hq] at hq'
    injection hq' with hq'
    subst hq'
    exact hg
  have g1 : Good (live 7 (repeatBefore ++ [.collect ⟨7, 2, 4⟩ []])) 1 := by
    refine Good.of_parent fun q hq hc => ?_
    have : declaredParent (live 7 (repeatBefore ++ [.collect ⟨7, 2, 4⟩ []])) 1 = some 0 := by decide
    rw [this] at hq
    injection hq with hq
    subst hq
    exact absurd hc (by decide)
  exact g (q := 2) (by decide) (g (q := 4) (by decide) (g (q := 1) (by decide) g1)) a h1 h2

end Appdash
