import Verif.Proofs.StoreView

/-! # `Traces`, returned pointers, `FindSpan` -/

namespace Appdash

open Spec

/-! ## The trace map has unique keys -/

theorem reattach_trace {ms ms' : MemStore} {d s : Addr} (h : ms.reattachChildren d s = some ms') :
    ms'.trace = ms.trace := by
  unfold MemStore.reattachChildren at h
  split at h
  · cases h
  · injection h with h
    rw [← h]; rfl

theorem insert_trace (ms : MemStore) (r s : Addr) : (ms.insert r s).trace = ms.trace := by
  unfold MemStore.insert
  split <;> rfl

theorem fixRoot_keys {ms ms' : MemStore} {id : SpanID} {s r r' : Addr} (h : ms.fixRoot id s r = some (ms', r'))
    (hk : (AMap.keys ms.trace).Nodup) : (AMap.keys ms'.trace).Nodup := by
  unfold MemStore.fixRoot at h
  split at h
  · simp only at h
    split at h
    · cases h
    · rename_i ms2 h2
      injection h with h
      injection h with h _
      rw [← h]
      show (AMap.keys (MemStore.insert ms2 s r).trace).Nodup
      rw [insert_trace, reattach_trace h2]
      exact AMap.nodup_keys_set _ _ _ hk
  · injection h with h
    injection h with h _
    rw [← h]; exact hk

theorem attach_keys {ms ms' : MemStore} {id : SpanID} {s : Addr} (h : ms.attach id s = some ms')
    (hk : (AMap.keys ms.trace).Nodup) : (AMap.keys ms'.trace).Nodup := by
  have main : ∀ (ms1 : MemStore) (r : Addr), (AMap.keys ms1.trace).Nodup →
      (match ms1.fixRoot id s r with
      | none => none
      | some (ms, root) =>
        let ms := if id.isRoot = false ∧ s ≠ root then ms.insert root s else ms
        if s ≠ root then ms.reattachChildren s root else some ms) = some ms' →
      (AMap.keys ms'.trace).Nodup := by
    intro ms1 r hk1 h1
    cases hf : ms1.fixRoot id s r with
    | none => rw [hf] at h1; cases h1
    | some q =>
      obtain ⟨ms2, r2⟩ := q
      rw [hf] at h1
      have hk2 := fixRoot_keys hf hk1
      simp only at h1
      have hk3 : (AMap.keys (if id.isRoot = false ∧ s ≠ r2 then ms2.insert r2 s else ms2).trace).Nodup := by
        split
        · rw [insert_trace]; exact hk2
        · exact hk2
      split at h1
      · rw [reattach_trace h1]; exact hk3
      · injection h1 with h1
        rw [← h1]; exact hk3
  unfold MemStore.attach at h
  cases ht : ms.trace.get id.trace with
  | some r =>
    simp only [ht] at h
    exact main ms r hk h
  | none =>
    simp only [ht] at h
    exact main _ s (AMap.nodup_keys_set _ _ _ hk) h

theorem step_keys {ms ms' : MemStore} {op : StoreOp} (h : ms.step op = some ms')
    (hk : (AMap.keys ms.trace).Nodup) : (AMap.keys ms'.trace).Nodup := by
  cases op with
  | collect id as =>
    simp only [MemStore.step, MemStore.collect] at h
    split at h
    · injection h with h; rw [← h]; exact hk
    · exact attach_keys h hk
  | delete ids =>
    simp only [MemStore.step] at h
    injection h with h
    rw [← h]
    clear h
    induction ids generalizing ms with
    | nil => exact hk
    | cons i ids ih => exact ih (ms := { ms with trace := ms.trace.del i, span := ms.span.del i }) (AMap.nodup_keys_del _ _ hk)

theorem run_keys {ops : List StoreOp} : ∀ {ms ms' : MemStore}, ms.run ops = some ms' →
    (AMap.keys ms.trace).Nodup → (AMap.keys ms'.trace).Nodup := by
  induction ops with
  | nil => intro ms ms' h hk; injection h with h; rw [← h]; exact hk
  | cons op ops ih =>
    intro ms ms' h hk
    simp only [MemStore.run] at h
    split at h
    · cases h
    · rename_i ms1 h1
      exact ih h (step_keys h1 hk)

theorem view_eq_of_get {ms : MemStore} {t : ID} {a : Addr} (h : ms.trace.get t = some a) {tr : Tree} :
    ms.view t = .found tr ↔ unfoldNode ms.heap ms.next a = some tr := by
  unfold MemStore.view MemStore.tracePtr
  rw [h]
  simp only
  cases unfoldNode ms.heap ms.next a <;> simp

theorem view_root_trace {ops : List StoreOp} {ms : MemStore} (h : MemStore.new.run ops = some ms) {t : ID}
    {tr : Tree} (hv : ms.view t = .found tr) : tr.span.id.trace = t := by
  obtain ⟨T, -, -, hu⟩ := run_view_found h hv
  rw [Forest.unfold_span _ hu]; rfl

theorem traces_view {ops : List StoreOp} {ms : MemStore} (h : MemStore.new.run ops = some ms) (opts : TracesOpts)
    {ptrs : List Addr} (hp : ptrs.Perm (ms.tracesPtr opts)) :
    ∃ trs, ms.tracesView ptrs = some trs ∧ (∀ tr, tr ∈ trs ↔ ∃ t, ms.view t = .found tr) ∧
      (trs.map fun tr => tr.span.id.trace).Nodup := by
  have hk : (AMap.keys ms.trace).Nodup := run_keys h (by simp [MemStore.new, AMap.keys])
  -- every entry of the map unfolds
  have hent : ∀ e ∈ ms.trace, ∃ tr, unfoldNode ms.heap ms.next e.2 = some tr ∧ ms.view e.1 = .found tr := by
    rintro ⟨t, a⟩ he
    have hg := AMap.get_of_mem hk he
    rcases run_view h t with ⟨-, h2⟩ | ⟨-, T, tr, -, -, h2, -⟩
    · unfold MemStore.view MemStore.tracePtr at h2
      rw [hg] at h2
      simp only at h2
      split at h2 <;> cases h2
    · exact ⟨tr, (view_eq_of_get hg).1 h2, h2⟩
  -- the same for a permutation of the entries
  obtain ⟨es, hes, rfl⟩ : ∃ es : List (ID × Addr), es.Perm ms.trace ∧ es.map Prod.snd = ptrs := by
    have : ptrs.Perm (ms.trace.map Prod.snd) := hp
    clear hp hk hent h
    generalize ms.trace = m at this
    induction m generalizing ptrs with
    | nil =>
      have := List.perm_nil.1 this
      exact ⟨[], List.Perm.nil, by rw [this]; rfl⟩
    | cons x m ih =>
      have hm : x.2 ∈ ptrs := this.symm.subset (by simp)
      obtain ⟨a, b, rfl⟩ := List.append_of_mem hm
      have h1 : (a ++ b).Perm (m.map Prod.snd) := by
        have := (List.perm_middle.symm.trans this)
        exact this.cons_inv
      obtain ⟨es, he1, he2⟩ := ih h1
      obtain ⟨u, v, rfl, hu, hv⟩ := List.map_eq_append_iff.1 he2
      refine ⟨u ++ x :: v, List.perm_middle.trans (he1.cons x), by simp [hu, hv]⟩
  have hent' : ∀ e ∈ es, ∃ tr, unfoldNode ms.heap ms.next e.2 = some tr ∧ ms.view e.1 = .found tr :=
    fun e he => hent e (hes.subset he)
  have hk' : (es.map Prod.fst).Nodup := (hes.map Prod.fst).nodup_iff.2 hk
  have key : ∃ trs, (es.map Prod.snd).mapM (unfoldNode ms.heap ms.next) = some trs ∧
      (∀ tr, tr ∈ trs ↔ ∃ t, t ∈ es.map Prod.fst ∧ ms.view t = .found tr) ∧
      (trs.map fun tr => tr.span.id.trace) = es.map Prod.fst := by
    clear hes hk' hp
    induction es with
    | nil => exact ⟨[], rfl, by simp, rfl⟩
    | cons e es ih =>
      obtain ⟨trs, h1, h2, h3⟩ := ih (fun x hx => hent' x (by simp [hx]))
      obtain ⟨tr, h4, h5⟩ := hent' e (by simp)
      refine ⟨tr :: trs, by simp [List.mapM_cons, h1, h4], ?_, ?_⟩
      · intro tr'
        simp only [List.mem_cons, List.map_cons, h2]
        constructor
        · rintro (rfl | ⟨t, ht, hv⟩)
          · exact ⟨e.1, Or.inl rfl, h5⟩
          · exact ⟨t, Or.inr ht, hv⟩
        · rintro ⟨t, rfl | ht, hv⟩
          · left
            rw [h5] at hv
            injection hv with hv
            exact hv.symm
          · exact Or.inr ⟨t, ht, hv⟩
      · simp only [List.map_cons, h3, view_root_trace h h5]
  obtain ⟨trs, h1, h2, h3⟩ := key
  refine ⟨trs, h1, ?_, by rw [h3]; exact hk'⟩
  intro tr
  rw [h2]
  constructor
  · rintro ⟨t, -, hv⟩; exact ⟨t, hv⟩
  · rintro ⟨t, hv⟩
    refine ⟨t, ?_, hv⟩
    have : t ∈ AMap.keys ms.trace := by
      rw [AMap.mem_keys_iff]
      cases hg : ms.trace.get t with
      | none => simp [MemStore.view, MemStore.tracePtr, hg] at hv
      | some a => rfl
    exact ((hes.map Prod.fst).mem_iff).2 this

/-! ## Pointers handed out earlier -/

theorem unfoldNode_congr {h h' : Addr → Node} (P : Addr → Prop) (hP : ∀ a, P a → h' a = h a)
    (hc : ∀ a, P a → ∀ c ∈ (h a).sub, P c) (fuel : Nat) (a : Addr) (ha : P a) :
    unfoldNode h' fuel a = unfoldNode h fuel a := by
  induction fuel generalizing a with
  | zero => rfl
  | succ fuel ih =>
    simp only [unfoldNode, hP a ha]
    have : (h a).sub.mapM (unfoldNode h' fuel) = (h a).sub.mapM (unfoldNode h fuel) := by
      have hcl := hc a ha
      generalize (h a).sub = cs at hcl
      induction cs with
      | nil => rfl
      | cons c cs ih2 =>
        simp only [List.mapM_cons]
        rw [ih c (hcl c (by simp)), ih2 (fun c hc => hcl c (by simp [hc]))]
    rw [this]

/-- A run does not write to the nodes of traces it does not collect for. -/
theorem run_frame {ops : List StoreOp} {t : ID} (hops : ∀ id as, StoreOp.collect id as ∈ ops → id.trace ≠ t) :
    ∀ {ms : MemStore} {A : AStore}, Sim ms A → ∃ ms', ms.run ops = some ms' ∧ Sim ms' (A.run ops) ∧
      (∀ a, a < ms.next → (ms.heap a).id.trace = t → ms'.heap a = ms.heap a) ∧ ms.next ≤ ms'.next := by
  induction ops with
  | nil => intro ms A S; exact ⟨ms, rfl, S, fun _ _ _ => rfl, Nat.le_refl _⟩
  | cons op ops ih =>
    intro ms A S
    have hops' : ∀ id as, StoreOp.collect id as ∈ ops → id.trace ≠ t := fun id as h => hops id as (by simp [h])
    have step1 : ∃ ms1, ms.step op = some ms1 ∧ Sim ms1 (A.step op) ∧
        (∀ a, a < ms.next → (ms.heap a).id.trace = t → ms1.heap a = ms.heap a) ∧ ms.next ≤ ms1.next := by
      cases op with
      | collect id as =>
        obtain ⟨ms1, h1, h2, h3, h4⟩ := sim_collect_frame S id as
        refine ⟨ms1, h1, h2, fun a ha hne => h3 a ha ?_, h4⟩
        rw [hne]
        exact fun e => hops id as (by simp) e.symm
      | delete ids =>
        have hd : ∀ (ids : List ID) (ms : MemStore), (ms.delete ids).heap = ms.heap ∧ (ms.delete ids).next = ms.next := by
          intro ids
          induction ids with
          | nil => intro ms; exact ⟨rfl, rfl⟩
          | cons i ids ih => intro ms; exact ih _
        refine ⟨_, rfl, sim_delete S ids, fun a _ _ => by rw [(hd ids ms).1], by rw [(hd ids ms).2]⟩
    obtain ⟨ms1, h1, S1, F1, n1⟩ := step1
    obtain ⟨ms2, h2, S2, F2, n2⟩ := ih hops' S1
    refine ⟨ms2, by simp [MemStore.run, h1, h2], S2, ?_, Nat.le_trans n1 n2⟩
    intro a ha hat
    rw [F2 a (Nat.lt_of_lt_of_le ha n1) (by rw [F1 a ha hat]; exact hat), F1 a ha hat]

theorem run_append (ops ops' : List StoreOp) (ms : MemStore) :
    ms.run (ops ++ ops') = (ms.run ops).bind (fun ms => ms.run ops') := by
  induction ops generalizing ms with
  | nil => rfl
  | cons op ops ih =>
    simp only [List.cons_append, MemStore.run]
    cases ms.step op with
    | none => rfl
    | some ms1 => exact ih ms1

theorem pointer_stable {ops ops' : List StoreOp} {ms ms' : MemStore} (h : MemStore.new.run ops = some ms)
    (h' : ms.run ops' = some ms') {t : ID} {a : Addr} (ha : ms.tracePtr t = some a)
    (hops : ∀ id as, StoreOp.collect id as ∈ ops' → id.trace ≠ t) (fuel : Nat) :
    unfoldNode ms'.heap fuel a = unfoldNode ms.heap fuel a := by
  obtain ⟨ms0, h1, S⟩ := sim_run sim_new ops
  rw [h] at h1
  injection h1 with h1
  subst h1
  obtain ⟨ms1, h2, -, F, -⟩ := run_frame hops S
  rw [h'] at h2
  injection h2 with h2
  subst h2
  have S' := S t
  cases hA : AStore.empty.run ops t with
  | none =>
    rw [hA] at S'
    unfold MemStore.tracePtr at ha
    rw [S'.1] at ha
    cases ha
  | some T =>
    rw [hA] at S'
    obtain ⟨sm, ra, e1, e2, e3, R⟩ := S'
    unfold MemStore.tracePtr at ha
    rw [e2] at ha
    injection ha with ha
    subst ha
    apply unfoldNode_congr (P := fun x => ∃ s, sm.get s = some x)
    · rintro x ⟨s, hs⟩
      obtain ⟨p, -, hid⟩ := R.id s x hs
      exact F x (R.lt s x hs) (by rw [hid])
    · rintro x ⟨s, hs⟩ c hc
      rw [R.sub s x hs, List.mem_map] at hc
      obtain ⟨c', hc', rfl⟩ := hc
      exact ⟨c', R.get_of_dom (R.closed s c' hc')⟩
    · exact ⟨_, e3⟩

/-! ## `FindSpan` -/

mutual
theorem findSpan_none (i : ID) : ∀ tr : Tree, tr.findSpan i = none ↔ ∀ sp ∈ tr.spans, sp.id.span ≠ i
  | .node s ts => by
    simp only [Tree.findSpan, Tree.spans, List.mem_cons, forall_eq_or_imp]
    split
    · simp_all
    · rename_i h
      rw [findSpanList_none i ts]
      simp [h]
theorem findSpanList_none (i : ID) : ∀ ts : List Tree, Tree.findSpanList i ts = none ↔
    ∀ sp ∈ Tree.spansList ts, sp.id.span ≠ i
  | [] => by simp [Tree.findSpanList, Tree.spansList]
  | t :: ts => by
    simp only [Tree.findSpanList, Tree.spansList, List.mem_append]
    have h1 := findSpan_none i t
    have h2 := findSpanList_none i ts
    cases h : t.findSpan i with
    | none =>
      simp only
      rw [h2]
      rw [h] at h1
      constructor
      · intro h3 sp hsp
        rcases hsp with hsp | hsp
        · exact h1.1 rfl sp hsp
        · exact h3 sp hsp
      · intro h3 sp hsp
        exact h3 sp (Or.inr hsp)
    | some r =>
      simp only [reduceCtorEq, false_iff, not_forall]
      rw [h] at h1
      simp only [reduceCtorEq, false_iff] at h1
      rw [Classical.not_forall] at h1
      obtain ⟨sp, hsp⟩ := h1
      rw [Classical.not_imp] at hsp
      exact ⟨sp, Or.inl hsp.1, hsp.2⟩
end

mutual
theorem findSpan_some (i : ID) : ∀ (tr r : Tree), tr.findSpan i = some r →
    r.span.id.span = i ∧ Subtree r tr ∧
      ∃ l l', tr.spans = l ++ r.spans ++ l' ∧ ∀ sp ∈ l, sp.id.span ≠ i
  | .node s ts, r, h => by
    simp only [Tree.findSpan] at h
    split at h
    · rename_i hs
      injection h with h
      subst h
      exact ⟨hs, .refl _, [], [], by simp, by simp⟩
    · rename_i hs
      obtain ⟨h1, ⟨c, hc, h2⟩, l, l', h3, h4⟩ := findSpanList_some i ts r h
      refine ⟨h1, .child h2 (by simpa [Tree.sub] using hc), s :: l, l', ?_, ?_⟩
      · simp [Tree.spans, h3]
      · intro sp hsp
        rcases List.mem_cons.1 hsp with rfl | hsp
        · exact hs
        · exact h4 sp hsp
theorem findSpanList_some (i : ID) : ∀ (ts : List Tree) (r : Tree), Tree.findSpanList i ts = some r →
    r.span.id.span = i ∧ (∃ c ∈ ts, Subtree r c) ∧
      ∃ l l', Tree.spansList ts = l ++ r.spans ++ l' ∧ ∀ sp ∈ l, sp.id.span ≠ i
  | [], r, h => by simp [Tree.findSpanList] at h
  | t :: ts, r, h => by
    simp only [Tree.findSpanList] at h
    cases ht : t.findSpan i with
    | some r' =>
      rw [ht] at h
      injection h with h
      subst h
      obtain ⟨h1, h2, l, l', h3, h4⟩ := findSpan_some i t r' ht
      refine ⟨h1, ⟨t, by simp, h2⟩, l, l' ++ Tree.spansList ts, ?_, h4⟩
      simp [Tree.spansList, h3]
    | none =>
      rw [ht] at h
      obtain ⟨h1, ⟨c, hc, h2⟩, l, l', h3, h4⟩ := findSpanList_some i ts r h
      refine ⟨h1, ⟨c, by simp [hc], h2⟩, t.spans ++ l, l', by simp [Tree.spansList, h3], ?_⟩
      intro sp hsp
      rcases List.mem_append.1 hsp with hsp | hsp
      · exact (findSpan_none i t).1 ht sp hsp
      · exact h4 sp hsp
end

end Appdash
