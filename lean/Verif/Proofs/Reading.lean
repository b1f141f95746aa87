import Verif.Model.Reading
import Verif.Spec.Reading
import Verif.Proofs.StoreTraces

/-! # Reading a trace while spans are collected -/

namespace Appdash

open Spec

/-! ## Addresses of spans stay -/

theorem reattach_span {ms ms' : MemStore} {d s : Addr} (h : ms.reattachChildren d s = some ms') : ms'.span = ms.span := by
  unfold MemStore.reattachChildren at h
  split at h
  · cases h
  · injection h with h
    rw [← h]; rfl

theorem insert_span (ms : MemStore) (r s : Addr) : (ms.insert r s).span = ms.span := by
  unfold MemStore.insert
  split <;> rfl

theorem fixRoot_span {ms ms' : MemStore} {id : SpanID} {s r r' : Addr} (h : ms.fixRoot id s r = some (ms', r')) :
    ms'.span = ms.span := by
  unfold MemStore.fixRoot at h
  split at h
  · simp only at h
    split at h
    · cases h
    · rename_i ms2 h2
      injection h with h
      injection h with h _
      rw [← h]
      show (MemStore.insert ms2 s r).span = ms.span
      rw [insert_span, reattach_span h2]
  · injection h with h
    injection h with h _
    rw [← h]

theorem attach_span {ms ms' : MemStore} {id : SpanID} {s : Addr} (h : ms.attach id s = some ms') : ms'.span = ms.span := by
  have main : ∀ (ms1 : MemStore) (r : Addr),
      (match ms1.fixRoot id s r with
      | none => none
      | some (ms, root) =>
        let ms := if id.isRoot = false ∧ s ≠ root then ms.insert root s else ms
        if s ≠ root then ms.reattachChildren s root else some ms) = some ms' →
      ms'.span = ms1.span := by
    intro ms1 r h1
    cases hf : ms1.fixRoot id s r with
    | none => rw [hf] at h1; cases h1
    | some q =>
      obtain ⟨ms2, r2⟩ := q
      rw [hf] at h1
      have hk2 := fixRoot_span hf
      simp only at h1
      have hk3 : (if id.isRoot = false ∧ s ≠ r2 then ms2.insert r2 s else ms2).span = ms1.span := by
        split
        · rw [insert_span]; exact hk2
        · exact hk2
      split at h1
      · rw [reattach_span h1]; exact hk3
      · injection h1 with h1
        rw [← h1]; exact hk3
  unfold MemStore.attach at h
  cases ht : ms.trace.get id.trace with
  | some r =>
    simp only [ht] at h
    exact main ms r h
  | none =>
    simp only [ht] at h
    exact main { ms with trace := ms.trace.set id.trace s } s h

theorem delete_span_get (t : ID) : ∀ (ids : List ID) (ms : MemStore), t ∉ ids → (ms.delete ids).span.get t = ms.span.get t
  | [], _, _ => rfl
  | i :: ids, ms, h => by
    simp only [List.mem_cons, not_or] at h
    rw [MemStore.delete, delete_span_get t ids _ h.2]
    exact AMap.get_del_ne _ (fun e => h.1 e.symm)

theorem collect_span_get {ms ms' : MemStore} {id : SpanID} {as : List Annotation} (h : ms.collect id as = some ms') {t : ID}
    {sm : AMap ID Addr} (hs : ms.span.get t = some sm) :
    ∃ sm', ms'.span.get t = some sm' ∧ ∀ s a, sm.get s = some a → sm'.get s = some a := by
  simp only [MemStore.collect] at h
  split at h
  · injection h with h
    exact ⟨sm, by rw [← h]; exact hs, fun _ _ h => h⟩
  · rename_i hn
    have e := attach_span h
    simp only at e
    rw [e]
    by_cases ht : t = id.trace
    · subst ht
      refine ⟨_, AMap.get_set_self _ _ _, ?_⟩
      intro s a ha
      rw [hs, Option.getD_some] at hn ⊢
      rw [AMap.get_set_ne _ _ (by rintro rfl; rw [hn] at ha; cases ha)]
      exact ha
    · exact ⟨sm, by rw [AMap.get_set_ne _ _ (fun e => ht e.symm)]; exact hs, fun _ _ h => h⟩

theorem run_span_get {t : ID} : ∀ {ops : List StoreOp} {ms ms' : MemStore}, ms.run ops = some ms' → Keeps t ops →
    ∀ {sm : AMap ID Addr}, ms.span.get t = some sm →
    ∃ sm', ms'.span.get t = some sm' ∧ ∀ s a, sm.get s = some a → sm'.get s = some a
  | [], ms, ms', h, _, sm, hs => by
    injection h with h
    exact ⟨sm, h ▸ hs, fun _ _ h => h⟩
  | op :: ops, ms, ms', h, hk, sm, hs => by
    simp only [MemStore.run] at h
    cases h1 : ms.step op with
    | none => rw [h1] at h; cases h
    | some ms1 =>
      rw [h1] at h
      have hk' : Keeps t ops := fun ids hi => hk ids (List.mem_cons_of_mem _ hi)
      have : ∃ sm1, ms1.span.get t = some sm1 ∧ ∀ s a, sm.get s = some a → sm1.get s = some a := by
        cases op with
        | collect id as => exact collect_span_get h1 hs
        | delete ids =>
          simp only [MemStore.step] at h1
          injection h1 with h1
          exact ⟨sm, by rw [← h1, delete_span_get t ids ms (hk ids (List.mem_cons_self ..))]; exact hs, fun _ _ h => h⟩
      obtain ⟨sm1, e1, e2⟩ := this
      obtain ⟨sm2, e3, e4⟩ := run_span_get h hk' e1
      exact ⟨sm2, e3, fun s a h => e4 s a (e2 s a h)⟩

/-! ## More calls for one trace -/

/-- The trace after more calls. -/
def ATrace.more (T : ATrace) (L : List Entry) : ATrace := L.foldl (fun T e => T.collect e.1.span e.1.parent e.2) T

theorem ATrace.more_append (T : ATrace) (L L' : List Entry) : T.more (L ++ L') = (T.more L).more L' := List.foldl_append ..

theorem arun_more {t : ID} : ∀ (ops : List StoreOp) (A : AStore) (T : ATrace), A t = some T → Keeps t ops →
    A.run ops t = some (T.more (live t ops))
  | [], A, T, h, _ => h
  | op :: ops, A, T, h, hk => by
    have hk' : Keeps t ops := fun ids hi => hk ids (List.mem_cons_of_mem _ hi)
    have fl : ∀ (ops : List StoreOp) (L : List Entry), Keeps t ops → ops.foldl (liveStep t) L = L ++ live t ops := by
      intro ops
      induction ops with
      | nil => intro L _; simp [live]
      | cons o ops ih =>
        intro L hk
        have hk' : Keeps t ops := fun ids hi => hk ids (List.mem_cons_of_mem _ hi)
        simp only [live, List.foldl_cons]
        rw [ih _ hk', ih (liveStep t [] o) hk']
        cases o with
        | collect id as =>
          simp only [liveStep]
          split <;> simp
        | delete ids =>
          simp [liveStep, hk ids (List.mem_cons_self ..)]
    have e : live t (op :: ops) = liveStep t [] op ++ live t ops := by
      rw [live, List.foldl_cons, fl _ _ hk']
    rw [e, ATrace.more_append]
    simp only [AStore.run]
    apply arun_more ops _ _ _ hk'
    cases op with
    | collect id as =>
      simp only [AStore.step, AStore.collect, upd, liveStep]
      by_cases e : t = id.trace
      · subst e
        simp [h, ATrace.more]
      · have e' : ¬ id.trace = t := fun e' => e e'.symm
        simp [e, e', h, ATrace.more]
    | delete ids =>
      simp [AStore.step, AStore.delete, liveStep, hk ids (List.mem_cons_self ..), h, ATrace.more]

theorem live_append {t : ID} (ops ops' : List StoreOp) (hk : Keeps t ops') : live t (ops ++ ops') = live t ops ++ live t ops' := by
  rw [live, List.foldl_append]
  show ops'.foldl (liveStep t) (live t ops) = _
  generalize live t ops = L
  induction ops' generalizing L with
  | nil => simp [live]
  | cons o ops' ih =>
    have hk' : Keeps t ops' := fun ids hi => hk ids (List.mem_cons_of_mem _ hi)
    simp only [live, List.foldl_cons]
    rw [ih hk', ih hk' (liveStep t [] o)]
    cases o with
    | collect id as =>
      simp only [liveStep]
      split <;> simp
    | delete ids =>
      simp [liveStep, hk ids (List.mem_cons_self ..)]

theorem HRep.more {T : ATrace} {L : List Entry} (H : HRep (some T) L) (L' : List Entry) : HRep (some (T.more L')) (L ++ L') := by
  induction L' generalizing T L with
  | nil => simpa [ATrace.more] using H
  | cons e L' ih =>
    have := ih (H.collect e.1 e.2)
    simpa [ATrace.more] using this

/-- The walk, without addresses: by the calls for the trace. -/
inductive AReads (t : ID) : ATrace → List Entry → List ID → List Tree → Prop
  | nil (T : ATrace) : AReads t T [] [] []
  | cons {T : ATrace} {L₁ L₂ L₃ L₄ : List Entry} {x : ID} {xs : List ID} {ts us : List Tree} :
      AReads t ((T.more L₁).more L₂) L₃ (((T.more L₁).more L₂).sub x) ts →
      AReads t (((T.more L₁).more L₂).more L₃) L₄ xs us →
      AReads t T (L₁ ++ L₂ ++ L₃ ++ L₄) (x :: xs) (.node ((T.more L₁).label t x) ts :: us)

/-- A state of the store in which the trace `t` is `T`, with the map `sm`. -/
structure Stands (t : ID) (ms : MemStore) (A : AStore) (sm : AMap ID Addr) (T : ATrace) : Prop where
  sim : Sim ms A
  at_ : A t = some T
  sm_ : ms.span.get t = some sm

theorem Stands.rep {t : ID} {ms : MemStore} {A : AStore} {sm : AMap ID Addr} {T : ATrace} (S : Stands t ms A sm T) :
    Rep ms.heap ms.next t sm T := by
  have := S.sim t
  rw [S.at_] at this
  obtain ⟨sm', ra, h1, -, -, R⟩ := this
  rw [S.sm_] at h1
  injection h1 with h1
  subst h1
  exact R

theorem Stands.run {t : ID} {ms ms' : MemStore} {A : AStore} {sm : AMap ID Addr} {T : ATrace} (S : Stands t ms A sm T)
    {ops : List StoreOp} (h : ms.run ops = some ms') (hk : Keeps t ops) :
    ∃ sm', Stands t ms' (A.run ops) sm' (T.more (live t ops)) ∧ ∀ s a, sm.get s = some a → sm'.get s = some a := by
  obtain ⟨ms1, h1, S1⟩ := sim_run S.sim ops
  rw [h] at h1
  injection h1 with h1
  subst h1
  obtain ⟨sm', e1, e2⟩ := run_span_get h hk S.sm_
  exact ⟨sm', ⟨S1, arun_more ops A T S.at_ hk, e1⟩, e2⟩

theorem addrOf_ext {sm sm' : AMap ID Addr} (h : ∀ s a, sm.get s = some a → sm'.get s = some a) {x : ID}
    (hx : (sm.get x).isSome = true) : addrOf sm' x = addrOf sm x := by
  obtain ⟨a, ha⟩ := Option.isSome_iff_exists.1 hx
  simp [addrOf, ha, h x a ha]

theorem keeps_left {t : ID} {a b : List StoreOp} (h : Keeps t (a ++ b)) : Keeps t a := fun ids hi => h ids (List.mem_append_left _ hi)

theorem keeps_right {t : ID} {a b : List StoreOp} (h : Keeps t (a ++ b)) : Keeps t b := fun ids hi => h ids (List.mem_append_right _ hi)

theorem reads_abstract {t : ID} {ms ms' : MemStore} {ops : List StoreOp} {as : List Addr} {ts : List Tree} (h : Reads ms ops as ts ms') :
    ∀ {A : AStore} {sm : AMap ID Addr} {T : ATrace}, Stands t ms A sm T → Keeps t ops → ∀ {xs : List ID},
      (∀ x ∈ xs, (T.par x).isSome = true) → as = xs.map (addrOf sm) →
      AReads t T (live t ops) xs ts ∧
        ∃ sm', Stands t ms' (A.run ops) sm' (T.more (live t ops)) ∧ ∀ s a, sm.get s = some a → sm'.get s = some a := by
  induction h with
  | nil ms =>
    intro A sm T S _ xs _ e
    cases xs with
    | nil => exact ⟨.nil T, sm, S, fun _ _ h => h⟩
    | cons x xs => cases e
  | @cons ms ms₁ ms₂ ms₃ ms₄ ops₁ ops₂ ops₃ ops₄ a as ts us h1 h2 h3 h4 ih3 ih4 =>
    intro A sm T S hk xs hx e
    cases xs with
    | nil => cases e
    | cons x xs =>
      simp only [List.map_cons, List.cons.injEq] at e
      obtain ⟨ea, eas⟩ := e
      have k1 := keeps_left (keeps_left (keeps_left hk))
      have k2 := keeps_right (keeps_left (keeps_left hk))
      have k3 := keeps_right (keeps_left hk)
      have k4 := keeps_right hk
      obtain ⟨sm1, S1, e1⟩ := S.run h1 k1
      obtain ⟨sm2, S2, e2⟩ := S1.run h2 k2
      have R := S.rep
      have R1 := S1.rep
      have R2 := S2.rep
      have dsm : ∀ y, (T.par y).isSome = true → (sm.get y).isSome = true := fun y hy => by rw [← R.dom]; exact hy
      have hxs := dsm x (hx x (List.mem_cons_self ..))
      obtain ⟨b, hb⟩ := Option.isSome_iff_exists.1 hxs
      have hab : a = b := by rw [ea]; exact Rep.addr_eq hb
      subst hab
      have hb1 := e1 x a hb
      have hb2 := e2 x a hb1
      have es : (ms₂.heap a).sub = (((T.more (live t ops₁)).more (live t ops₂)).sub x).map (addrOf sm2) := R2.sub x a hb2
      obtain ⟨A3, sm3, S3, e3⟩ := ih3 S2 k3 (fun c hc => R2.closed x c hc) es
      have em : ∀ s b, sm.get s = some b → sm3.get s = some b := fun s b h => e3 s b (e2 s b (e1 s b h))
      have par3 : ∀ y, (sm.get y).isSome = true → ((((T.more (live t ops₁)).more (live t ops₂)).more (live t ops₃)).par y).isSome = true := by
        intro y hy
        obtain ⟨b, hb⟩ := Option.isSome_iff_exists.1 hy
        rw [S3.rep.dom, em y b hb]
        rfl
      have eas' : as = xs.map (addrOf sm3) := by
        rw [eas]
        apply List.map_congr_left
        intro y hy
        exact (addrOf_ext em (dsm y (hx y (List.mem_cons_of_mem _ hy)))).symm
      obtain ⟨A4, sm4, S4, e4⟩ := ih4 S3 k4 (fun y hy => par3 y (dsm y (hx y (List.mem_cons_of_mem _ hy)))) eas'
      have el : live t (ops₁ ++ ops₂ ++ ops₃ ++ ops₄) = live t ops₁ ++ live t ops₂ ++ live t ops₃ ++ live t ops₄ := by
        rw [live_append _ _ k4, live_append _ _ k3, live_append _ _ k2]
      have lab : ({ id := (ms₁.heap a).id, annotations := (ms₁.heap a).anns } : Span) = (T.more (live t ops₁)).label t x := by
        obtain ⟨p, hp, hid⟩ := R1.id x a hb1
        simp [ATrace.label, hp, hid, R1.anns x a hb1]
      rw [lab, el]
      refine ⟨.cons A3 A4, sm4, ?_, fun s b h => e4 s b (em s b h)⟩
      have er : ∀ (o o' : List StoreOp) (B : AStore), B.run (o ++ o') = (B.run o).run o' := by
        intro o
        induction o with
        | nil => intro o' B; rfl
        | cons x o ih => intro o' B; exact ih o' _
      rw [er, er, er, ATrace.more_append, ATrace.more_append, ATrace.more_append]
      exact S4

/-! ## What is read was collected -/

theorem mem_spansList_cons {t : Tree} {ts : List Tree} {sp : Span} : sp ∈ Tree.spansList (t :: ts) ↔ sp ∈ t.spans ∨ sp ∈ Tree.spansList ts := by
  rw [Tree.spansList, List.mem_append]

theorem declaredParent_more (L : List Entry) {s p : ID} (h : declaredParent L s = some p) (K : List Entry) : declaredParent (L ++ K) s = some p := by
  induction L with
  | nil => cases h
  | cons e L ih =>
    rw [List.cons_append]
    simp only [declaredParent] at h ⊢
    split
    · rename_i he
      rw [if_pos he] at h
      exact h
    · rename_i he
      rw [if_neg he] at h
      exact ih h

theorem annotationsOf_more (L K : List Entry) (s : ID) : annotationsOf (L ++ K) s = annotationsOf L s ++ annotationsOf K s := by
  induction L with
  | nil => rfl
  | cons e L ih => rw [List.cons_append, annotationsOf, annotationsOf, ih, List.append_assoc]

theorem areads_sound {t : ID} {T : ATrace} {L : List Entry} {xs : List ID} {ts : List Tree} (h : AReads t T L xs ts) :
    ∀ {L₀ : List Entry}, HRep (some T) L₀ → (∀ x ∈ xs, (T.par x).isSome = true) → ∀ sp ∈ Tree.spansList ts,
      ∃ K, K <+: L ∧ sp.id.trace = t ∧ declaredParent (L₀ ++ K) sp.id.span = some sp.id.parent ∧
        sp.annotations = annotationsOf (L₀ ++ K) sp.id.span := by
  induction h with
  | nil T => intro L₀ _ _ sp hsp; cases hsp
  | @cons T L₁ L₂ L₃ L₄ x xs ts us h3 h4 ih3 ih4 =>
    intro L₀ H hx sp hsp
    have H1 := H.more L₁
    have H2 := H1.more L₂
    have H3 := H2.more L₃
    have keep : ∀ {T : ATrace} {L L' : List Entry}, HRep (some T) L → ∀ {y : ID}, (T.par y).isSome = true → ((T.more L').par y).isSome = true := by
      intro T L L' H y hy
      rw [(H.more L').2.1, ← collected_iff]
      rw [H.2.1, ← collected_iff] at hy
      obtain ⟨e, he, h⟩ := hy
      exact ⟨e, List.mem_append_left _ he, h⟩
    rw [mem_spansList_cons, Tree.spans, List.mem_cons] at hsp
    rcases hsp with (rfl | hsp) | hsp
    · refine ⟨L₁, ⟨L₂ ++ L₃ ++ L₄, by simp⟩, rfl, ?_, ?_⟩
      · have hd : ((T.more L₁).par x).isSome = true := keep H (hx x (List.mem_cons_self ..))
        obtain ⟨p, hp⟩ := Option.isSome_iff_exists.1 hd
        show declaredParent (L₀ ++ L₁) x = some (((T.more L₁).par x).getD 0)
        rw [← H1.2.1, hp]
        rfl
      · exact H1.2.2.1 x
    · obtain ⟨K, ⟨K', hK⟩, a, b, c⟩ := ih3 H2 (fun y hy => H2.2.2.2.1.dom_c x y hy) sp hsp
      refine ⟨L₁ ++ L₂ ++ K, ⟨K' ++ L₄, ?_⟩, a, ?_, ?_⟩
      · rw [← hK]; simp
      · rw [← b]; simp
      · rw [c]; simp
    · obtain ⟨K, ⟨K', hK⟩, a, b, c⟩ := ih4 H3 (fun y hy => keep H2 (keep H1 (keep H (hx y (List.mem_cons_of_mem _ hy))))) sp hsp
      refine ⟨L₁ ++ L₂ ++ L₃ ++ K, ⟨K', ?_⟩, a, ?_, ?_⟩
      · rw [← hK]; simp
      · rw [← b]; simp
      · rw [c]; simp

theorem areads_spans {t : ID} {T : ATrace} {L : List Entry} {xs : List ID} {ts : List Tree} (h : AReads t T L xs ts) :
    ts.map (fun tr => tr.span.id.span) = xs := by
  induction h with
  | nil T => rfl
  | cons h3 h4 ih3 ih4 =>
    rw [List.map_cons, ih4]
    rfl

theorem areads_edges {t : ID} {T : ATrace} {L : List Entry} {xs : List ID} {ts : List Tree} (h : AReads t T L xs ts) :
    ∀ {L₀ : List Entry}, HRep (some T) L₀ → (∀ x ∈ xs, (T.par x).isSome = true) → ∀ a b, (a, b) ∈ Tree.edgesList ts →
      b.id.parent = a.id.span ∨ ¬ Collected L₀ b.id.parent := by
  induction h with
  | nil T => intro L₀ _ _ a b hab; cases hab
  | @cons T L₁ L₂ L₃ L₄ x xs ts us h3 h4 ih3 ih4 =>
    intro L₀ H hx a b hab
    have H2 := (H.more L₁).more L₂
    have H3 := H2.more L₃
    have keep : ∀ {T : ATrace} {L L' : List Entry}, HRep (some T) L → ∀ {y : ID}, (T.par y).isSome = true → ((T.more L').par y).isSome = true := by
      intro T L L' H y hy
      rw [(H.more L').2.1, ← collected_iff]
      rw [H.2.1, ← collected_iff] at hy
      obtain ⟨e, he, h⟩ := hy
      exact ⟨e, List.mem_append_left _ he, h⟩
    have coll : ∀ {K : List Entry} {q : ID}, ¬ Collected (L₀ ++ K) q → ¬ Collected L₀ q :=
      fun h ⟨e, he, hq⟩ => h ⟨e, List.mem_append_left _ he, hq⟩
    rw [Tree.edgesList, Tree.edges, List.mem_append, List.mem_append] at hab
    rcases hab with (hab | hab) | hab
    · obtain ⟨c, hc, e⟩ := List.mem_map.1 hab
      injection e with e1 e2
      subst e1 e2
      have hd : ∀ y ∈ ((T.more L₁).more L₂).sub x, (((T.more L₁).more L₂).par y).isSome = true := fun y hy => H2.2.2.2.1.dom_c x y hy
      have hs : c.span.id.span ∈ ((T.more L₁).more L₂).sub x := by
        rw [← areads_spans h3]
        exact List.mem_map_of_mem (f := fun tr : Tree => tr.span.id.span) hc
      have hcs : c.span ∈ Tree.spansList ts := by
        clear ih3 ih4 h3 h4 hab hs hd
        induction ts with
        | nil => cases hc
        | cons u ts ih =>
          rw [mem_spansList_cons]
          rcases List.mem_cons.1 hc with rfl | hc
          · left
            cases c
            rw [Tree.spans]
            exact List.mem_cons_self ..
          · exact Or.inr (ih hc)
      obtain ⟨K, -, -, hp, -⟩ := areads_sound h3 H2 hd _ hcs
      have hpar : ∃ q, ((T.more L₁).more L₂).par c.span.id.span = some q := Option.isSome_iff_exists.1 (hd _ hs)
      obtain ⟨q, hq⟩ := hpar
      have := declaredParent_more _ ((H2.2.1 _).symm.trans hq) K
      rw [hp] at this
      injection this with this
      rcases H2.2.2.2.1.place x _ hs with h | ⟨-, q', h, h'⟩
      · left
        rw [hq] at h
        injection h with h
        rw [this, h]
        rfl
      · right
        rw [hq] at h
        injection h with h
        subst h
        rw [this]
        rw [H2.2.1, ← not_collected_iff, List.append_assoc] at h'
        exact coll h'
    · have := ih3 H2 (fun y hy => H2.2.2.2.1.dom_c x y hy) a b hab
      rcases this with h | h
      · exact Or.inl h
      · rw [List.append_assoc] at h
        exact Or.inr (coll h)
    · have := ih4 H3 (fun y hy => keep H2 (keep (H.more L₁) (keep H (hx y (List.mem_cons_of_mem _ hy))))) a b hab
      rcases this with h | h
      · exact Or.inl h
      · rw [List.append_assoc, List.append_assoc] at h
        exact Or.inr (coll h)

/-! ## Nothing is lost while the root stays -/

/-- No call of the list changes the root. -/
def KeepsRoot (T : ATrace) (L : List Entry) : Prop :=
  ∀ e ∈ L, (T.par e.1.span).isSome = true ∨ (e.1.parent ≠ 0 ∧ T.par T.root ≠ some e.1.span)

theorem keepsRoot_step {T : ATrace} (I : AInv T) {e : Entry} {L : List Entry} (h : KeepsRoot T (e :: L)) :
    (T.collect e.1.span e.1.parent e.2).root = T.root ∧ KeepsRoot (T.collect e.1.span e.1.parent e.2) L ∧
      ∀ y c, y ≠ T.root → c ∈ T.sub y → c ∈ (T.collect e.1.span e.1.parent e.2).sub y := by
  have he := h e (List.mem_cons_self ..)
  have hr : (T.collect e.1.span e.1.parent e.2).root = T.root := by
    rw [collect_root T I, if_neg]
    rintro ⟨h1, h2⟩
    rcases he with he | ⟨a, b⟩
    · rw [h1] at he; cases he
    · rcases h2 with h2 | h2
      · exact a h2
      · exact b h2
  refine ⟨hr, ?_, ?_⟩
  · intro f hf
    have hmono : ∀ y q, T.par y = some q → (T.collect e.1.span e.1.parent e.2).par y = some q := by
      intro y q hy
      rw [collect_par T I]
      split
      · exact hy
      · rename_i hn
        simp only [upd]
        split
        · rename_i ey
          subst ey
          rw [hy] at hn
          exact absurd rfl hn
        · exact hy
    rcases h f (List.mem_cons_of_mem _ hf) with h | ⟨a, b⟩
    · obtain ⟨q, hq⟩ := Option.isSome_iff_exists.1 h
      exact Or.inl (by rw [hmono _ q hq]; rfl)
    · refine Or.inr ⟨a, ?_⟩
      obtain ⟨q, hq⟩ := Option.isSome_iff_exists.1 I.root_in
      rw [hr, hmono _ q hq, ← hq]
      exact b
  · intro y c hy hc
    cases hs : T.par e.1.span with
    | some q => simpa [ATrace.collect, hs] using hc
    | none =>
      rcases he with he | ⟨a, b⟩
      · rw [hs] at he; cases he
      · obtain ⟨-, -, m⟩ := I.insert_moved e.2 hs (not_or.2 ⟨a, b⟩)
        rw [m.mem]
        right
        refine ⟨?_, y, hc, ?_⟩
        · rintro rfl
          exact I.not_mem_sub hs y hc
        · rw [if_neg]
          rintro ⟨h1, -⟩
          exact hy h1

theorem keepsRoot_more {T : ATrace} (I : AInv T) {L K : List Entry} (h : KeepsRoot T (L ++ K)) :
    (T.more L).root = T.root ∧ KeepsRoot (T.more L) K ∧ AInv (T.more L) ∧ ∀ y c, y ≠ T.root → c ∈ T.sub y → c ∈ (T.more L).sub y := by
  induction L generalizing T with
  | nil => exact ⟨rfl, h, I, fun _ _ _ h => h⟩
  | cons e L ih =>
    obtain ⟨h1, h2, h3⟩ := keepsRoot_step I h
    obtain ⟨a, b, c, d⟩ := ih (I.collect e.1.span e.1.parent e.2) h2
    refine ⟨a.trans h1, b, c, fun y x hy hx => d y x (by rw [h1]; exact hy) (h3 y x hy hx)⟩

theorem areads_complete {t : ID} {T : ATrace} {L : List Entry} {xs : List ID} {ts : List Tree} (h : AReads t T L xs ts) :
    AInv T → KeepsRoot T L → T.root ∉ xs → ∀ x ∈ xs, ∀ n y, Forest.Steps T.sub n x y →
      ∃ sp ∈ Tree.spansList ts, sp.id.span = y := by
  induction h with
  | nil T => intro _ _ _ x hx; cases hx
  | @cons T L₁ L₂ L₃ L₄ x xs ts us h3 h4 ih3 ih4 =>
    intro I hk hr z hz n y hs
    have hk' : KeepsRoot T ((L₁ ++ L₂) ++ (L₃ ++ L₄)) := by rw [← List.append_assoc]; exact hk
    obtain ⟨r2, k2, I2, p2⟩ := keepsRoot_more I hk'
    rw [ATrace.more_append] at r2 k2 I2 p2
    obtain ⟨r3, k3, I3, p3⟩ := keepsRoot_more I2 k2
    simp only [List.mem_cons, not_or] at hr
    -- Paths stay.
    have stay : ∀ {T T' : ATrace}, AInv T → (∀ y c, y ≠ T.root → c ∈ T.sub y → c ∈ T'.sub y) → ∀ {n : Nat} {a y : ID}, a ≠ T.root →
        Forest.Steps T.sub n a y → Forest.Steps T'.sub n a y ∧ y ≠ T.root := by
      intro T T' I hp n a y ha hs
      induction n generalizing y with
      | zero => cases hs; exact ⟨rfl, ha⟩
      | succ n ih =>
        obtain ⟨p, hp', hy⟩ := hs
        obtain ⟨i1, i2⟩ := ih hp'
        refine ⟨⟨p, i1, hp p y i2 hy⟩, ?_⟩
        rintro rfl
        exact I.wf.rootless p hy
    rcases List.mem_cons.1 hz with rfl | hz
    · obtain ⟨s2, -⟩ := stay I p2 (fun e => hr.1 e.symm) hs
      cases n with
      | zero =>
        cases s2
        exact ⟨_, by rw [mem_spansList_cons, Tree.spans]; exact Or.inl (List.mem_cons_self ..), rfl⟩
      | succ n =>
        obtain ⟨c, hc, s2⟩ := s2.head
        obtain ⟨sp, e1, e2⟩ := ih3 I2 (fun f hf => k2 f (List.mem_append_left _ hf)) (I2.wf.rootless z) c hc n y s2
        exact ⟨sp, by rw [mem_spansList_cons, Tree.spans]; exact Or.inl (List.mem_cons_of_mem _ e1), e2⟩
    · have hzr : z ≠ T.root := by rintro rfl; exact hr.2 hz
      obtain ⟨s2, -⟩ := stay I p2 hzr hs
      obtain ⟨s3, -⟩ := stay I2 p3 (by rw [r2]; exact hzr) s2
      obtain ⟨sp, e1, e2⟩ := ih4 I3 k3 (by rw [r3, r2]; exact hr.2) z hz n y s3
      exact ⟨sp, by rw [mem_spansList_cons]; exact Or.inr e1, e2⟩

theorem areads_complete_root {t : ID} {T : ATrace} {L L₀ : List Entry} {tr : Tree} (h : AReads t T L [T.root] [tr])
    (H : HRep (some T) L₀) (hk : KeepsRoot T L) {y : ID} (hc : Collected L₀ y) (hg : Good (L₀ ++ L) y) :
    ∃ sp ∈ tr.spans, sp.id.span = y := by
  generalize hxs : [T.root] = xs at h
  generalize hts : [tr] = ts at h
  cases h with
  | nil => cases hxs
  | @cons _ L₁ L₂ L₃ L₄ x xs ts us h3 h4 =>
    injection hxs with e1 e2
    subst e1 e2
    injection hts with e1 e2
    subst e1 e2
    have I := H.2.2.2.1
    have hk' : KeepsRoot T ((L₁ ++ L₂) ++ (L₃ ++ L₄)) := by rw [← List.append_assoc]; exact hk
    obtain ⟨r2, k2, I2, p2⟩ := keepsRoot_more I hk'
    rw [ATrace.more_append] at r2 k2 I2 p2
    have H2 := (H.more L₁).more L₂
    have coll : ∀ {K K' : List Entry} {q : ID}, Collected K q → Collected (K ++ K') q :=
      fun ⟨e, he, hq⟩ => ⟨e, List.mem_append_left _ he, hq⟩
    have anc : ∀ {K K' : List Entry} {a b : ID}, Ancestor K a b → Ancestor (K ++ K') a b := by
      intro K K' a b h
      induction h with
      | base h => exact .base ⟨declaredParent_more _ h.1 _, coll h.2⟩
      | step _ h ih => exact ih.step ⟨declaredParent_more _ h.1 _, coll h.2⟩
    have hg2 : Good (L₀ ++ L₁ ++ L₂) y := by
      intro a ha hh
      have e : L₀ ++ (L₁ ++ L₂ ++ L₃ ++ L₄) = (L₀ ++ L₁ ++ L₂) ++ (L₃ ++ L₄) := by simp
      rw [e] at hg
      refine hg a ?_ (anc hh)
      rcases ha with ha | ha
      · exact Or.inl ha
      · exact Or.inr (anc ha)
    obtain ⟨n, hs⟩ := reachable_of_good H2 (coll (coll hc)) hg2
    rw [r2] at hs
    cases n with
    | zero =>
      cases hs
      exact ⟨_, by rw [Tree.spans]; exact List.mem_cons_self .., rfl⟩
    | succ n =>
      obtain ⟨c, hc, s2⟩ := hs.head
      obtain ⟨sp, e1, e2⟩ := areads_complete h3 I2 (fun f hf => k2 f (List.mem_append_left _ hf)) (I2.wf.rootless _) c hc n y s2
      exact ⟨sp, by rw [Tree.spans]; exact List.mem_cons_of_mem _ e1, e2⟩

/-! ## The shape stays while no span is new -/

theorem more_old {T : ATrace} {L : List Entry} (h : ∀ e ∈ L, (T.par e.1.span).isSome = true) :
    (T.more L).sub = T.sub ∧ (T.more L).par = T.par ∧ (T.more L).root = T.root ∧ ∀ s, (T.more L).anns s = T.anns s ++ annotationsOf L s := by
  induction L generalizing T with
  | nil => exact ⟨rfl, rfl, rfl, fun s => (List.append_nil _).symm⟩
  | cons e L ih =>
    have he := h e (List.mem_cons_self ..)
    have hc : T.collect e.1.span e.1.parent e.2 = { T with anns := upd T.anns e.1.span (T.anns e.1.span ++ e.2) } := by
      simp [ATrace.collect, he]
    obtain ⟨a, b, c, d⟩ := ih (T := T.collect e.1.span e.1.parent e.2) (fun f hf => by rw [hc]; exact h f (List.mem_cons_of_mem _ hf))
    have hm : T.more (e :: L) = (T.collect e.1.span e.1.parent e.2).more L := rfl
    rw [hm]
    refine ⟨a.trans (by rw [hc]), b.trans (by rw [hc]), c.trans (by rw [hc]), ?_⟩
    intro s
    rw [d, hc]
    simp only [upd, annotationsOf]
    by_cases hs : s = e.1.span
    · subst hs; simp
    · have : ¬ e.1.span = s := fun h => hs h.symm
      simp [hs, this]

theorem areads_between {t : ID} {T : ATrace} {L : List Entry} {xs : List ID} {ts : List Tree} (h : AReads t T L xs ts) :
    (∀ e ∈ L, (T.par e.1.span).isSome = true) →
      ∀ (f g : ID → Span) (fuel : Nat) (as bs : List Tree),
        (∀ x, (f x).id = (T.label t x).id) → (∀ x, (g x).id = (T.label t x).id) →
        (∀ x, (f x).annotations <+: T.anns x) → (∀ x, (T.more L).anns x <+: (g x).annotations) →
        xs.mapM (Forest.unfold f T.sub fuel) = some as → xs.mapM (Forest.unfold g T.sub fuel) = some bs → Between as ts bs := by
  induction h with
  | nil T =>
    intro _ f g fuel as bs _ _ _ _ ha hb
    rw [Forest.mapM_nil_some ha, Forest.mapM_nil_some hb]
    exact .nil
  | @cons T L₁ L₂ L₃ L₄ x xs ts us h3 h4 ih3 ih4 =>
    intro hL f g fuel as bs hf hg fa ga ha hb
    have hL1 : ∀ e ∈ L₁, (T.par e.1.span).isSome = true := fun e he => hL e (by simp [he])
    obtain ⟨s1, p1, -, a1⟩ := more_old hL1
    have hL2 : ∀ e ∈ L₂, ((T.more L₁).par e.1.span).isSome = true := fun e he => by rw [p1]; exact hL e (by simp [he])
    obtain ⟨s2, p2, -, a2⟩ := more_old hL2
    have hL3 : ∀ e ∈ L₃, (((T.more L₁).more L₂).par e.1.span).isSome = true := fun e he => by rw [p2, p1]; exact hL e (by simp [he])
    obtain ⟨s3, p3, -, a3⟩ := more_old hL3
    have hL4 : ∀ e ∈ L₄, ((((T.more L₁).more L₂).more L₃).par e.1.span).isSome = true := fun e he => by rw [p3, p2, p1]; exact hL e (by simp [he])
    obtain ⟨s4, p4, -, a4⟩ := more_old hL4
    simp only [ATrace.more_append] at ga
    have lab : ∀ (T' : ATrace), T'.par = T.par → ∀ y, (T'.label t y).id = (T.label t y).id := fun T' e y => by simp [ATrace.label, e]
    obtain ⟨u, us', e1, e2, rfl⟩ := Forest.mapM_cons_some ha
    obtain ⟨v, vs', d1, d2, rfl⟩ := Forest.mapM_cons_some hb
    cases fuel with
    | zero => cases e1
    | succ fuel =>
      simp only [Forest.unfold] at e1 d1
      cases q1 : (T.sub x).mapM (Forest.unfold f T.sub fuel) with
      | none => rw [q1] at e1; cases e1
      | some cs =>
        cases q2 : (T.sub x).mapM (Forest.unfold g T.sub fuel) with
        | none => rw [q2] at d1; cases d1
        | some ds =>
          rw [q1] at e1
          rw [q2] at d1
          injection e1 with e1
          injection d1 with d1
          subst e1 d1
          have S : ((T.more L₁).more L₂).sub = T.sub := s2.trans s1
          have P : ((T.more L₁).more L₂).par = T.par := p2.trans p1
          refine .cons ?_ ?_ ?_ ?_ (ih3 hL3 f g fuel cs ds ?_ ?_ ?_ ?_ ?_ ?_) (ih4 hL4 f g (fuel + 1) us' vs' ?_ ?_ ?_ ?_ ?_ ?_)
          · rw [hf, lab _ p1]
          · rw [hg, hf]
          · show (f x).annotations <+: (T.more L₁).anns x
            rw [a1]
            exact (fa x).trans (List.prefix_append _ _)
          · show (T.more L₁).anns x <+: (g x).annotations
            refine List.IsPrefix.trans ?_ (ga x)
            rw [a4, a3, a2, List.append_assoc, List.append_assoc]
            exact List.prefix_append _ _
          · intro y; rw [hf, lab _ P]
          · intro y; rw [hg, lab _ P]
          · intro y
            rw [a2, a1, List.append_assoc]
            exact (fa y).trans (List.prefix_append _ _)
          · intro y
            refine List.IsPrefix.trans ?_ (ga y)
            rw [a4]
            exact List.prefix_append _ _
          · rw [S]; exact q1
          · rw [S]; exact q2
          · intro y; rw [hf, lab _ (p3.trans P)]
          · intro y; rw [hg, lab _ (p3.trans P)]
          · intro y
            rw [a3, a2, a1, List.append_assoc, List.append_assoc]
            exact (fa y).trans (List.prefix_append _ _)
          · exact ga
          · rw [s3, S]; exact e2
          · rw [s3, S]; exact d2

/-! ## Calls for other traces -/

theorem reads_frame {t : ID} {h₀ : Addr → Node} {P : Addr → Prop} {n₀ : Nat} (hP : ∀ a, P a → a < n₀ ∧ (h₀ a).id.trace = t)
    (hc : ∀ a, P a → ∀ c ∈ (h₀ a).sub, P c) {ms ms' : MemStore} {ops : List StoreOp} {as : List Addr} {ts : List Tree}
    (h : Reads ms ops as ts ms') : ∀ {A : AStore}, Sim ms A → n₀ ≤ ms.next → (∀ a, P a → ms.heap a = h₀ a) →
      (∀ id an, StoreOp.collect id an ∈ ops → id.trace ≠ t) → (∀ a ∈ as, P a) →
      (∃ A', Sim ms' A' ∧ n₀ ≤ ms'.next ∧ ∀ a, P a → ms'.heap a = h₀ a) ∧
        ∀ fuel us, as.mapM (unfoldNode h₀ fuel) = some us → ts = us := by
  induction h with
  | nil ms =>
    intro A S hn hh _ _
    refine ⟨⟨A, S, hn, hh⟩, ?_⟩
    intro fuel us hu
    exact (Forest.mapM_nil_some hu).symm
  | @cons ms ms₁ ms₂ ms₃ ms₄ ops₁ ops₂ ops₃ ops₄ a as ts us h1 h2 h3 h4 ih3 ih4 =>
    intro A S hn hh hops has
    have go : ∀ {ms ms' : MemStore} {A : AStore} {o : List StoreOp}, Sim ms A → n₀ ≤ ms.next → (∀ a, P a → ms.heap a = h₀ a) →
        (∀ id an, StoreOp.collect id an ∈ o → id.trace ≠ t) → ms.run o = some ms' →
        Sim ms' (A.run o) ∧ n₀ ≤ ms'.next ∧ ∀ a, P a → ms'.heap a = h₀ a := by
      intro ms ms' A o S hn hh ho hr
      obtain ⟨m, e, S', F, n'⟩ := run_frame ho S
      rw [hr] at e
      injection e with e
      subst e
      refine ⟨S', by omega, fun a ha => ?_⟩
      obtain ⟨q1, q2⟩ := hP a ha
      rw [F a (by omega) (by rw [hh a ha]; exact q2), hh a ha]
    obtain ⟨S1, n1, g1⟩ := go S hn hh (fun id an hi => hops id an (by simp [hi])) h1
    obtain ⟨S2, n2, g2⟩ := go S1 n1 g1 (fun id an hi => hops id an (by simp [hi])) h2
    have ha := has a (List.mem_cons_self ..)
    obtain ⟨⟨A3, S3, n3, g3⟩, u3⟩ := ih3 S2 n2 g2 (fun id an hi => hops id an (by simp [hi])) (by rw [g2 a ha]; exact hc a ha)
    obtain ⟨r4, u4⟩ := ih4 S3 n3 g3 (fun id an hi => hops id an (by simp [hi])) (fun b hb => has b (List.mem_cons_of_mem _ hb))
    refine ⟨r4, ?_⟩
    intro fuel vs hv
    obtain ⟨v, vs', e1, e2, rfl⟩ := Forest.mapM_cons_some hv
    rw [u4 fuel vs' e2]
    cases fuel with
    | zero => cases e1
    | succ fuel =>
      simp only [unfoldNode] at e1
      cases q : (h₀ a).sub.mapM (unfoldNode h₀ fuel) with
      | none => rw [q] at e1; cases e1
      | some cs =>
        rw [q] at e1
        injection e1 with e1
        rw [← e1, u3 fuel cs (by rw [g2 a ha]; exact q), g1 a ha]

theorem readWhile_stands {ops : List StoreOp} {ms : MemStore} (h : MemStore.new.run ops = some ms) {t : ID} {a : Addr}
    (ha : ms.tracePtr t = some a) :
    ∃ sm T, Stands t ms (AStore.empty.run ops) sm T ∧ HRep (some T) (live t ops) ∧ sm.get T.root = some a := by
  obtain ⟨ms0, h1, S⟩ := sim_run sim_new ops
  rw [h] at h1
  injection h1 with h1
  subst h1
  have H : HSim AStore.empty (fun _ => []) := fun _ => rfl
  have H' := H.run ops t
  have S' := S t
  cases hA : AStore.empty.run ops t with
  | none =>
    rw [hA] at S'
    unfold MemStore.tracePtr at ha
    rw [S'.1] at ha
    cases ha
  | some T =>
    rw [hA] at S' H'
    obtain ⟨sm, ra, e1, e2, e3, R⟩ := S'
    unfold MemStore.tracePtr at ha
    rw [e2] at ha
    injection ha with ha
    subst ha
    exact ⟨sm, T, ⟨S, hA, e1⟩, H', e3⟩

theorem readWhile_abstract {ops ops' : List StoreOp} {ms ms' : MemStore} (h : MemStore.new.run ops = some ms) {t : ID} {tr : Tree}
    (hr : ms.ReadWhile t ops' tr ms') (hk : Keeps t ops') :
    ∃ T sm, AReads t T (live t ops') [T.root] [tr] ∧ HRep (some T) (live t ops) ∧ Stands t ms (AStore.empty.run ops) sm T ∧
      (T.par T.root).isSome = true ∧
      ∃ sm', Stands t ms' ((AStore.empty.run ops).run ops') sm' (T.more (live t ops')) := by
  obtain ⟨a, ha, hr⟩ := hr
  obtain ⟨sm, T, S, H, e⟩ := readWhile_stands h ha
  have hd := H.2.2.2.1.root_in
  obtain ⟨hA, sm', S', -⟩ := reads_abstract hr S hk (xs := [T.root]) (by simpa using hd) (by simp [addrOf, e])
  exact ⟨T, sm, hA, H, S, hd, sm', S'⟩

theorem mem_live {t : ID} {ops : List StoreOp} {e : Entry} (he : e ∈ live t ops) :
    ∃ as, StoreOp.collect e.1 as ∈ ops ∧ e.1.trace = t := by
  have gen : ∀ (ops : List StoreOp) (L : List Entry), e ∈ ops.foldl (liveStep t) L →
      e ∈ L ∨ ∃ as, StoreOp.collect e.1 as ∈ ops ∧ e.1.trace = t := by
    intro ops
    induction ops with
    | nil => intro L h; exact Or.inl h
    | cons o ops ih =>
      intro L h
      rcases ih _ h with h | ⟨as, h, h'⟩
      · cases o with
        | collect id as =>
          simp only [liveStep] at h
          split at h
          · rename_i ht
            rcases List.mem_append.1 h with h | h
            · exact Or.inl h
            · have := List.mem_singleton.1 h
              subst this
              exact Or.inr ⟨as, List.mem_cons_self .., ht⟩
          · exact Or.inl h
        | delete ids =>
          simp only [liveStep] at h
          split at h
          · cases h
          · exact Or.inl h
      · exact Or.inr ⟨as, List.mem_cons_of_mem _ h, h'⟩
  rcases gen ops [] he with h | h
  · cases h
  · exact h

/-! ## Reading at one go -/

theorem reads_of_unfold {ms : MemStore} : ∀ (fuel : Nat) (as : List Addr) (ts : List Tree),
    as.mapM (unfoldNode ms.heap fuel) = some ts → Reads ms [] as ts ms := by
  intro fuel
  induction fuel with
  | zero =>
    intro as ts h
    cases as with
    | nil => rw [Forest.mapM_nil_some h]; exact .nil ms
    | cons a as => obtain ⟨t, us, e, -⟩ := Forest.mapM_cons_some h; cases e
  | succ fuel ih =>
    intro as
    induction as with
    | nil => intro ts h; rw [Forest.mapM_nil_some h]; exact .nil ms
    | cons a as ih2 =>
      intro ts h
      obtain ⟨t, us, e1, e2, rfl⟩ := Forest.mapM_cons_some h
      simp only [unfoldNode] at e1
      cases q : (ms.heap a).sub.mapM (unfoldNode ms.heap fuel) with
      | none => rw [q] at e1; cases e1
      | some cs =>
        rw [q] at e1
        injection e1 with e1
        subst e1
        exact Reads.cons (ops₁ := []) (ops₂ := []) (ops₃ := []) (ops₄ := []) rfl rfl (ih _ _ q) (ih2 _ e2)

/-- A trace that is read after all the calls. -/
theorem readWhile_after {ms ms' : MemStore} {ops : List StoreOp} (h : ms.run ops = some ms') {t : ID} {a : Addr} (ha : ms.tracePtr t = some a)
    {fuel : Nat} {tr : Tree} (hu : unfoldNode ms'.heap fuel a = some tr) : ms.ReadWhile t ops tr ms' := by
  refine ⟨a, ha, ?_⟩
  cases fuel with
  | zero => cases hu
  | succ fuel =>
    simp only [unfoldNode] at hu
    cases q : (ms'.heap a).sub.mapM (unfoldNode ms'.heap fuel) with
    | none => rw [q] at hu; cases hu
    | some cs =>
      rw [q] at hu
      injection hu with hu
      subst hu
      have := Reads.cons (ops₁ := ops) (ops₂ := []) (ops₃ := []) (ops₄ := []) h rfl (reads_of_unfold _ _ _ q) (.nil ms')
      simpa using this

/-- The parent of the root, as the trace shows it. -/
theorem root_parent {t : ID} {ms : MemStore} {A : AStore} {sm : AMap ID Addr} {T : ATrace} (S : Stands t ms A sm T) {L : List Entry}
    (H : HRep (some T) L) {before : Tree} (hb : ms.view t = .found before) : T.par T.root = some before.span.id.parent := by
  have hd := H.2.2.2.1.root_in
  have St := S.sim t
  rw [S.at_] at St
  obtain ⟨b, b1, b2⟩ := view_found St H.2.2.2.1
  rw [hb] at b1
  injection b1 with b1
  subst b1
  obtain ⟨q, hq⟩ := Option.isSome_iff_exists.1 hd
  rw [hq]
  generalize ms.next = fuel at b2
  cases fuel with
  | zero => cases b2
  | succ fuel =>
    simp only [Forest.unfold] at b2
    split at b2
    · cases b2
    · injection b2 with b2
      rw [← b2]
      simp [Tree.span, ATrace.label, hq]

end Appdash
