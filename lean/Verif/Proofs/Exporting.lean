import Verif.Proofs.Reading

/-!
# Facts about exporting a trace while spans are collected
-/

namespace Appdash

open Spec

/-- While the slices `Sub` stay as they are, the export reads the nodes as any other reader does. -/
theorem encodes_reads {P : Addr → Prop} {S : Addr → List Addr} {ok : StoreOp → Prop} {I : MemStore → Prop}
    (hI : ∀ ms o ms', I ms → (∀ op ∈ o, ok op) → ms.run o = some ms' → I ms') (hS : ∀ ms, I ms → ∀ a, P a → (ms.heap a).sub = S a)
    (hc : ∀ a, P a → ∀ c ∈ S a, P c) {ms ms' : MemStore} {ops : List StoreOp} {a : Addr} {r : Option Tree} (h : Encodes ms ops a r ms') :
    I ms → (∀ op ∈ ops, ok op) → P a → I ms' ∧ ∃ ms₁ ms₂ o₁ o₂ o₃ ts, ops = o₁ ++ o₂ ++ o₃ ∧ ms.run o₁ = some ms₁ ∧
      ms₁.run o₂ = some ms₂ ∧ Reads ms₂ o₃ (ms₂.heap a).sub ts ms' ∧
      r = some (.node { id := (ms₁.heap a).id, annotations := (ms₁.heap a).anns } ts) := by
  refine Encodes.rec (motive_1 := fun ms ops a r ms' _ => I ms → (∀ op ∈ ops, ok op) → P a → I ms' ∧ ∃ ms₁ ms₂ o₁ o₂ o₃ ts,
      ops = o₁ ++ o₂ ++ o₃ ∧ ms.run o₁ = some ms₁ ∧ ms₁.run o₂ = some ms₂ ∧ Reads ms₂ o₃ (ms₂.heap a).sub ts ms' ∧
      r = some (.node { id := (ms₁.heap a).id, annotations := (ms₁.heap a).anns } ts))
    (motive_2 := fun ms ops a i n r ms' _ => I ms → (∀ op ∈ ops, ok op) → P a → n = (S a).length →
      I ms' ∧ ∃ ts, r = some ts ∧ Reads ms ops ((S a).drop i) ts ms') ?_ ?_ ?_ ?_ ?_ h
  · intro ms ms₁ ms₂ ms₃ ops₁ ops₂ ops₃ a r h1 h2 h3 ih hi ho hp
    have i1 := hI _ _ _ hi (fun op hop => ho op (by simp [hop])) h1
    have i2 := hI _ _ _ i1 (fun op hop => ho op (by simp [hop])) h2
    obtain ⟨i3, ts, e, hr⟩ := ih i2 (fun op hop => ho op (by simp [hop])) hp (by rw [hS _ i2 a hp])
    refine ⟨i3, ms₁, ms₂, ops₁, ops₂, ops₃, ts, rfl, h1, h2, ?_, by rw [e]; rfl⟩
    rw [hS _ i2 a hp]
    exact hr
  · intro ms a n hi ho hp hn
    refine ⟨hi, [], rfl, ?_⟩
    rw [hn, List.drop_length]
    exact .nil ms
  · intro ms ms₁ ops a i n hlt h1 hnone hi ho hp hn
    have i1 := hI _ _ _ hi ho h1
    rw [hS _ i1 a hp, List.getElem?_eq_none_iff] at hnone
    omega
  · intro ms ms₁ ms₂ ms₃ ops₁ ops₂ ops₃ a c i n t r hlt h1 hsome h2 h3 ih2 ih3 hi ho hp hn
    have i1 := hI _ _ _ hi (fun op hop => ho op (by simp [hop])) h1
    rw [hS _ i1 a hp] at hsome
    have hcP := hc a hp c (List.mem_of_getElem? hsome)
    obtain ⟨i2, m1, m2, o1, o2, o3, ts, rfl, r1, r2, r3, e⟩ := ih2 i1 (fun op hop => ho op (by simp at hop ⊢; simp [hop])) hcP
    injection e with e
    subst e
    obtain ⟨i3, us, e, hr⟩ := ih3 i2 (fun op hop => ho op (by simp [hop])) hp hn
    refine ⟨i3, _, by rw [e]; rfl, ?_⟩
    have hd : (S a).drop i = c :: (S a).drop (i + 1) := by
      obtain ⟨hl, rfl⟩ := List.getElem?_eq_some_iff.1 hsome
      exact List.drop_eq_getElem_cons hl
    rw [hd]
    have := Reads.cons (ops₁ := ops₁ ++ o1) (by rw [run_append, h1]; exact r1) r2 r3 hr
    simpa [List.append_assoc] using this
  · intro ms ms₁ ms₂ ops₁ ops₂ a c i n hlt h1 hsome h2 ih2 hi ho hp hn
    have i1 := hI _ _ _ hi (fun op hop => ho op (by simp [hop])) h1
    rw [hS _ i1 a hp] at hsome
    have hcP := hc a hp c (List.mem_of_getElem? hsome)
    obtain ⟨_, _, _, _, _, _, _, _, _, _, _, e⟩ := ih2 i1 (fun op hop => ho op (by simp [hop])) hcP
    cases e

theorem export_readWhile {P : Addr → Prop} {S : Addr → List Addr} {ok : StoreOp → Prop} {I : MemStore → Prop}
    (hI : ∀ ms o ms', I ms → (∀ op ∈ o, ok op) → ms.run o = some ms' → I ms') (hS : ∀ ms, I ms → ∀ a, P a → (ms.heap a).sub = S a)
    (hc : ∀ a, P a → ∀ c ∈ S a, P c) {ms ms' : MemStore} {t : ID} {ops : List StoreOp} {r : Option Tree}
    (h : ms.ExportWhile t ops r ms') (hi : I ms) (ho : ∀ op ∈ ops, ok op) (hp : ∀ a, ms.tracePtr t = some a → P a) :
    ∃ tr, r = some tr ∧ ms.ReadWhile t ops tr ms' := by
  obtain ⟨a, ha, h⟩ := h
  obtain ⟨-, m1, m2, o1, o2, o3, ts, rfl, r1, r2, r3, e⟩ := encodes_reads hI hS hc h hi ho (hp a ha)
  refine ⟨_, e, a, ha, ?_⟩
  have := Reads.cons r1 r2 r3 (.nil ms')
  simpa using this

/-- The slices `Sub` do not change while only annotations are added. -/
theorem export_annotations {ops ops' : List StoreOp} {ms ms' : MemStore} (h : MemStore.new.run ops = some ms) {t : ID} {r : Option Tree}
    (hr : ms.ExportWhile t ops' r ms') (hk : Keeps t ops')
    (hops : ∀ id as, StoreOp.collect id as ∈ ops' → id.trace = t → Collected (live t ops) id.span) :
    ∃ tr, r = some tr ∧ ms.ReadWhile t ops' tr ms' := by
  have hr0 := hr
  obtain ⟨a, ha, -⟩ := hr0
  obtain ⟨sm, T, S, H, e⟩ := readWhile_stands h ha
  have R := S.rep
  have old : ∀ s, Collected (live t ops) s → (T.par s).isSome = true := by
    intro s hs
    rw [H.2.1, ← collected_iff]
    exact hs
  refine export_readWhile (P := fun x => ∃ s, sm.get s = some x) (S := fun x => (ms.heap x).sub)
    (ok := fun op => (∀ ids, op = .delete ids → t ∉ ids) ∧ ∀ id as, op = .collect id as → id.trace = t → (T.par id.span).isSome = true)
    (I := fun m => ∃ A sm' T', Stands t m A sm' T' ∧ T'.sub = T.sub ∧ T'.par = T.par ∧ ∀ s a, sm.get s = some a → sm'.get s = some a)
    ?_ ?_ ?_ hr ⟨_, _, _, S, rfl, rfl, fun _ _ h => h⟩ ?_ ?_
  · rintro m o m' ⟨A, sm', T', S', e1, e2, e3⟩ ho hrun
    obtain ⟨sm2, S2, e4⟩ := S'.run hrun (fun ids hi => (ho _ hi).1 ids rfl)
    obtain ⟨q1, q2, -, -⟩ := more_old (T := T') (L := live t o) (fun en hen => by
      obtain ⟨as, h1, h2⟩ := mem_live hen
      rw [e2]
      exact (ho _ h1).2 _ _ rfl h2)
    exact ⟨_, _, _, S2, by rw [q1, e1], by rw [q2, e2], fun s a hs => e4 s a (e3 s a hs)⟩
  · rintro m ⟨A, sm', T', S', e1, e2, e3⟩ x ⟨s, hs⟩
    rw [S'.rep.sub s x (e3 s x hs), R.sub s x hs, e1]
    apply List.map_congr_left
    intro c hc
    exact addrOf_ext e3 (by rw [← R.dom]; exact R.closed s c hc)
  · rintro x ⟨s, hs⟩ c hc
    rw [R.sub s x hs, List.mem_map] at hc
    obtain ⟨c', hc', rfl⟩ := hc
    exact ⟨c', R.get_of_dom (R.closed s c' hc')⟩
  · intro op hop
    refine ⟨fun ids he => hk ids (he ▸ hop), fun id as he ht => old _ (hops id as (he ▸ hop) ht)⟩
  · intro b hb
    rw [ha] at hb
    injection hb with hb
    subst hb
    exact ⟨_, e⟩

/-- Nor do they change while nothing is collected for the trace. -/
theorem export_undisturbed {ops ops' : List StoreOp} {ms ms' : MemStore} (h : MemStore.new.run ops = some ms) {t : ID} {r : Option Tree}
    (hr : ms.ExportWhile t ops' r ms') (hops : ∀ id as, StoreOp.collect id as ∈ ops' → id.trace ≠ t) :
    ∃ tr, r = some tr ∧ ms.ReadWhile t ops' tr ms' := by
  have hr0 := hr
  obtain ⟨a, ha, -⟩ := hr0
  obtain ⟨sm, T, S, H, e⟩ := readWhile_stands h ha
  have R := S.rep
  refine export_readWhile (P := fun x => ∃ s, sm.get s = some x) (S := fun x => (ms.heap x).sub)
    (ok := fun op => ∀ id as, op = .collect id as → id.trace ≠ t)
    (I := fun m => (∃ A, Sim m A) ∧ ms.next ≤ m.next ∧ ∀ x, (∃ s, sm.get s = some x) → m.heap x = ms.heap x)
    ?_ ?_ ?_ hr ⟨⟨_, S.sim⟩, Nat.le_refl _, fun _ _ => rfl⟩ ?_ ?_
  · rintro m o m' ⟨⟨A, S'⟩, hn, hh⟩ ho hrun
    obtain ⟨m1, e1, S1, F, n1⟩ := run_frame (t := t) (fun id as hi => ho _ hi id as rfl) S'
    rw [hrun] at e1
    injection e1 with e1
    subst e1
    refine ⟨⟨_, S1⟩, by omega, ?_⟩
    rintro x ⟨s, hs⟩
    obtain ⟨p, -, hid⟩ := R.id s x hs
    have := R.lt s x hs
    rw [F x (by omega) (by rw [hh x ⟨s, hs⟩, hid]), hh x ⟨s, hs⟩]
  · rintro m ⟨-, -, hh⟩ x hx
    rw [hh x hx]
  · rintro x ⟨s, hs⟩ c hc
    rw [R.sub s x hs, List.mem_map] at hc
    obtain ⟨c', hc', rfl⟩ := hc
    exact ⟨c', R.get_of_dom (R.closed s c' hc')⟩
  · intro op hop id as he
    exact hops id as (he ▸ hop)
  · intro b hb
    rw [ha] at hb
    injection hb with hb
    subst hb
    exact ⟨_, e⟩

end Appdash
