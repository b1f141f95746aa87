import Verif.Proofs.Restart

/-! # When `Write` returns -/

namespace Appdash

open Spec

theorem encodeMap_isSome {h : Addr → Node} {fuel : Nat} {m : AMap ID Addr}
    (hm : ∀ p ∈ m, ∃ tr, unfoldNode h fuel p.2 = some tr) : ∃ l, MemStore.encodeMap h fuel m = some l := by
  apply Forest.mapM_isSome
  intro p hp
  obtain ⟨tr, e⟩ := hm p hp
  exact ⟨(p.1, gobTree tr), by rw [e]; rfl⟩

theorem encodeMaps_isSome {h : Addr → Node} {fuel : Nat} {m : AMap ID (AMap ID Addr)}
    (hm : ∀ q ∈ m, ∀ p ∈ q.2, ∃ tr, unfoldNode h fuel p.2 = some tr) : ∃ l, MemStore.encodeMaps h fuel m = some l := by
  apply Forest.mapM_isSome
  intro q hq
  obtain ⟨l, e⟩ := encodeMap_isSome (hm q hq)
  exact ⟨(q.1, l), by rw [e]; rfl⟩

/-- A span that is not under the root has ancestors at every distance. -/
theorem AInv.far_ancestor {T : ATrace} (I : AInv T) {s : ID} (hs : (T.par s).isSome = true)
    (hu : ∀ n, ¬ Forest.Steps T.sub n T.root s) (n : Nat) :
    ∃ y, (T.par y).isSome = true ∧ Forest.Steps T.sub n y s ∧ ∀ k, ¬ Forest.Steps T.sub k T.root y := by
  induction n with
  | zero => exact ⟨s, hs, rfl, hu⟩
  | succ n ih =>
    obtain ⟨y, h1, h2, h3⟩ := ih
    have hne : y ≠ T.root := by rintro rfl; exact h3 0 rfl
    obtain ⟨p, hp⟩ := I.has y h1 hne
    exact ⟨p, I.dom_p p y hp, h2.cons hp, fun k hk => h3 (k + 1) ⟨p, hk, hp⟩⟩

theorem writes_of_visible {ops : List StoreOp} {ms : MemStore} (h : MemStore.new.run ops = some ms)
    (hv : ∀ t s, Collected (live t ops) s → ∃ tr, ms.view t = .found tr ∧ ∃ sp ∈ tr.spans, sp.id.span = s) :
    ∃ d, ms.Writes d := by
  have nT : (AMap.keys ms.trace).Nodup := run_keys h (by simp [MemStore.new, AMap.keys])
  have nS : SpanKeys ms.span := run_spanKeys h ⟨by simp [MemStore.new, AMap.keys], by intro t l hl; cases hl⟩
  have key : ∀ t m s a, ms.span.get t = some m → m.get s = some a → ∃ tr, unfoldNode ms.heap ms.next a = some tr := by
    intro t m s a hm hs
    obtain ⟨T, ho, R, H, ra, hra, -⟩ := run_span_rep h hm
    have I := H.2.2.2.1
    have hd : (T.par s).isSome = true := by rw [R.dom, hs]; rfl
    have hc : Collected (live t ops) s := by rw [collected_iff, ← H.2.1]; exact hd
    obtain ⟨tr, hvw, sp, hsp, hid⟩ := hv t s hc
    obtain ⟨T', ho', -, hu⟩ := run_view_found h hvw
    rw [ho] at ho'
    injection ho' with ho'
    subst ho'
    obtain ⟨k, x, hx, rfl⟩ := (mem_spans_iff hu sp).1 hsp
    have : x = s := hid
    subst this
    obtain ⟨t', ht'⟩ := Forest.unfold_isSome (sub := T.sub) (T.label t) ms.next x (fun n y hy => by
      have := Forest.steps_lt_of_unfold _ hu (hx.trans hy)
      omega)
    refine ⟨t', ?_⟩
    rw [← ht', ← unfoldNode_eq R ms.next x hd, Rep.addr_eq hs]
  have keyT : ∀ p ∈ ms.trace, ∃ tr, unfoldNode ms.heap ms.next p.2 = some tr := by
    rintro ⟨t, a⟩ hp
    obtain ⟨T, m, hm, R, hr⟩ := run_trace_rep h (AMap.get_of_mem nT hp)
    exact key t m T.root a hm hr
  have keyS : ∀ q ∈ ms.span, ∀ p ∈ q.2, ∃ tr, unfoldNode ms.heap ms.next p.2 = some tr := by
    rintro ⟨t, m⟩ hq ⟨s, a⟩ hp
    have hm := AMap.get_of_mem nS.1 hq
    exact key t m s a hm (AMap.get_of_mem (nS.2 t m hm) hp)
  obtain ⟨l1, e1⟩ := encodeMap_isSome keyT
  obtain ⟨l2, e2⟩ := encodeMaps_isSome keyS
  exact ⟨⟨l1, l2⟩, ms.next, by simp [MemStore.write, e1, e2]⟩

theorem visible_of_writes {ops : List StoreOp} {ms : MemStore} (h : MemStore.new.run ops = some ms) {d : GobData}
    (hw : ms.Writes d) (t s : ID) (hc : Collected (live t ops) s) :
    ∃ tr, ms.view t = .found tr ∧ ∃ sp ∈ tr.spans, sp.id.span = s := by
  obtain ⟨fuel, hw⟩ := hw
  obtain ⟨w1, w2⟩ := write_inv hw
  obtain ⟨s1, s2, s3⟩ := encodeMaps_spec w2
  rcases run_view h t with ⟨h1, -⟩ | ⟨-, T, tr, ho, H, hv, hu⟩
  · rw [h1] at hc; obtain ⟨_, hx, _⟩ := hc; cases hx
  · have I := H.2.2.2.1
    refine ⟨tr, hv, ?_⟩
    by_cases hr : ∃ n, Forest.Steps T.sub n T.root s
    · obtain ⟨n, hn⟩ := hr
      exact ⟨T.label t s, (mem_spans_iff hu _).2 ⟨n, s, hn, rfl⟩, rfl⟩
    · exfalso
      have hd : (T.par s).isSome = true := by rw [H.2.1]; exact (collected_iff _ _).1 hc
      obtain ⟨y, hy, hst, -⟩ := I.far_ancestor hd (fun n hn => hr ⟨n, hn⟩) fuel
      obtain ⟨S, -⟩ := run_state h t
      rw [ho] at S
      obtain ⟨sm, ra, e1, e2, e3, R⟩ := S
      obtain ⟨l, f1, f2⟩ := s3 t sm e1
      obtain ⟨-, -, -, g⟩ := encodeMap_spec f1
      obtain ⟨ty, u1, -⟩ := g y _ (R.get_of_dom hy)
      rw [unfoldNode_eq R fuel y hy] at u1
      have := Forest.steps_lt_of_unfold _ u1 hst
      omega

/-! ## Reachable stores -/

theorem MemStore.Reachable.sound {ms : MemStore} (h : ms.Reachable) : Sound ms := by
  induction h with
  | new => exact new_sound
  | step op _ e ih => exact ih.step e
  | readFrom _ hw _ ih1 ih2 => exact readFrom_sound ih1 hw ih2.loose

theorem reachable_run {ops : List StoreOp} : ∀ {ms ms' : MemStore}, ms.Reachable → ms.run ops = some ms' → ms'.Reachable := by
  induction ops with
  | nil => intro ms ms' S h; injection h with h; rw [← h]; exact S
  | cons op ops ih =>
    intro ms ms' S h
    simp only [MemStore.run] at h
    split at h
    · cases h
    · rename_i ms1 h1
      exact ih (.step op S h1) h


theorem view_ne_infinite {ops : List StoreOp} {ms : MemStore} (h : MemStore.new.run ops = some ms) (t : ID) :
    ms.view t ≠ .infinite := by
  rcases run_view h t with ⟨-, h2⟩ | ⟨-, T, tr, -, -, h2, -⟩ <;> rw [h2] <;> exact fun h => by cases h

theorem SameAnnotation.refl_list : ∀ l : List Annotation, List.Forall₂ SameAnnotation l l
  | [] => .nil
  | _ :: l => .cons ⟨rfl, rfl⟩ (refl_list l)

mutual
theorem SameTree.refl : ∀ t : Tree, SameTree t t
  | .node _ ts => .node rfl (SameAnnotation.refl_list _) (SameTrees.refl ts)
theorem SameTrees.refl : ∀ ts : List Tree, SameTrees ts ts
  | [] => .nil
  | t :: ts => .cons (SameTree.refl t) (SameTrees.refl ts)
end

theorem SameResult.refl : ∀ r : TraceResult, r ≠ .infinite → SameResult r r
  | .notFound, _ => .notFound
  | .found t, _ => .found (SameTree.refl t)
  | .infinite, h => absurd rfl h

end Appdash
