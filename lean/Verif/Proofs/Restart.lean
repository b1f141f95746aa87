import Verif.Proofs.Persist
import Mathlib.Data.List.Induction

/-! # Collecting into a store that was read from a file

After `ReadFrom` the trace map and the span map no longer share nodes, so the invariant of `StoreAbs` does not hold.
What remains is that every pointer stays within its trace. -/

namespace Appdash

open Spec

/-- Every pointer stays within its trace. -/
structure Loose (ms : MemStore) : Prop where
  sub : ∀ a, a < ms.next → ∀ c ∈ (ms.heap a).sub, c < ms.next ∧ (ms.heap c).id.trace = (ms.heap a).id.trace
  trace : ∀ t a, ms.trace.get t = some a → a < ms.next ∧ (ms.heap a).id.trace = t
  span : ∀ t m s a, ms.span.get t = some m → m.get s = some a → a < ms.next ∧ (ms.heap a).id.trace = t

/-- Only trace `t` changes. -/
structure Only (t : ID) (ms ms' : MemStore) : Prop where
  next : ms.next ≤ ms'.next
  id : ∀ a, a < ms.next → (ms'.heap a).id = (ms.heap a).id
  heap : ∀ a, a < ms.next → (ms.heap a).id.trace ≠ t → ms'.heap a = ms.heap a
  trace : ∀ t', t' ≠ t → ms'.trace.get t' = ms.trace.get t'
  span : ∀ t', t' ≠ t → ms'.span.get t' = ms.span.get t'

theorem Only.refl (t : ID) (ms : MemStore) : Only t ms ms :=
  ⟨Nat.le_refl _, fun _ _ => rfl, fun _ _ _ => rfl, fun _ _ => rfl, fun _ _ => rfl⟩

theorem Only.trans {t : ID} {a b c : MemStore} (h1 : Only t a b) (h2 : Only t b c) : Only t a c where
  next := Nat.le_trans h1.next h2.next
  id x hx := (h2.id x (Nat.lt_of_lt_of_le hx h1.next)).trans (h1.id x hx)
  heap x hx hne := by
    rw [h2.heap x (Nat.lt_of_lt_of_le hx h1.next) (by rw [h1.id x hx]; exact hne), h1.heap x hx hne]
  trace t' ht := (h2.trace t' ht).trans (h1.trace t' ht)
  span t' ht := (h2.span t' ht).trans (h1.span t' ht)

/-- `a` is a node of trace `t`. -/
def In (ms : MemStore) (t : ID) (a : Addr) : Prop := a < ms.next ∧ (ms.heap a).id.trace = t

theorem Only.isIn {t t' : ID} {ms ms' : MemStore} (o : Only t ms ms') {a : Addr} (h : In ms t' a) : In ms' t' a :=
  ⟨Nat.lt_of_lt_of_le h.1 o.next, by rw [o.id a h.1]; exact h.2⟩

theorem setSub_loose {ms : MemStore} (L : Loose ms) {t : ID} {a : Addr} (ha : In ms t a) {cs : List Addr}
    (hcs : ∀ c ∈ cs, In ms t c) : Loose (ms.setSub a cs) ∧ Only t ms (ms.setSub a cs) := by
  have hid : ∀ x, ((ms.setSub a cs).heap x).id = (ms.heap x).id := by
    intro x
    simp only [MemStore.setSub, heapUpd]
    split
    · rename_i e; rw [e]
    · rfl
  refine ⟨⟨?_, ?_, ?_⟩, ⟨Nat.le_refl _, fun x _ => hid x, ?_, fun _ _ => rfl, fun _ _ => rfl⟩⟩
  · intro x hx c hc
    rw [hid, hid]
    by_cases e : x = a
    · subst e
      have : ((ms.setSub x cs).heap x).sub = cs := by simp [MemStore.setSub, heapUpd]
      rw [this] at hc
      exact ⟨(hcs c hc).1, (hcs c hc).2.trans ha.2.symm⟩
    · have : ((ms.setSub a cs).heap x) = ms.heap x := by simp [MemStore.setSub, heapUpd, e]
      rw [this] at hc
      exact L.sub x hx c hc
  · intro t' x hx
    rw [hid]
    exact L.trace t' x hx
  · intro t' m s x h1 h2
    rw [hid]
    exact L.span t' m s x h1 h2
  · intro x _ hne
    have : x ≠ a := by rintro rfl; exact hne ha.2
    simp [MemStore.setSub, heapUpd, this]

theorem Loose.child {ms : MemStore} (L : Loose ms) {t : ID} {a c : Addr} (ha : In ms t a) (hc : c ∈ (ms.heap a).sub) :
    In ms t c := by
  have := L.sub a ha.1 c hc
  exact ⟨this.1, this.2.trans ha.2⟩

theorem appendSub_loose {ms : MemStore} (L : Loose ms) {t : ID} {a : Addr} (ha : In ms t a) {cs : List Addr}
    (hcs : ∀ c ∈ cs, In ms t c) : Loose (ms.appendSub a cs) ∧ Only t ms (ms.appendSub a cs) := by
  refine setSub_loose L ha (cs := (ms.heap a).sub ++ cs) ?_
  intro c hc
  rcases List.mem_append.1 hc with hc | hc
  · exact L.child ha hc
  · exact hcs c hc

theorem insert_loose {ms : MemStore} (L : Loose ms) {t : ID} {r x : Addr} (hr : In ms t r) (hx : In ms t x) :
    Loose (ms.insert r x) ∧ Only t ms (ms.insert r x) := by
  unfold MemStore.insert
  split
  · rename_i p hp
    refine appendSub_loose L ?_ (by simpa using hx)
    unfold MemStore.spanGet at hp
    split at hp
    · cases hp
    · rename_i m hm
      have := L.span _ _ _ _ hm hp
      exact ⟨this.1, this.2.trans hx.2⟩
  · exact appendSub_loose L hr (by simpa using hx)

theorem move_loose {ms : MemStore} (L : Loose ms) {t : ID} {d s : Addr} (hd : In ms t d) (hs : In ms t s)
    (f g : Addr → Bool) :
    Loose ((ms.appendSub d ((ms.heap s).sub.filter f)).setSub s ((ms.heap s).sub.filter g)) ∧
    Only t ms ((ms.appendSub d ((ms.heap s).sub.filter f)).setSub s ((ms.heap s).sub.filter g)) := by
  obtain ⟨L1, O1⟩ := appendSub_loose L hd (cs := (ms.heap s).sub.filter f)
    (fun c hc => L.child hs (List.mem_filter.1 hc).1)
  obtain ⟨L2, O2⟩ := setSub_loose L1 (O1.isIn hs) (cs := (ms.heap s).sub.filter g)
    (fun c hc => O1.isIn (L.child hs (List.mem_filter.1 hc).1))
  exact ⟨L2, O1.trans O2⟩

theorem reattach_loose {ms : MemStore} (L : Loose ms) {t : ID} {d s : Addr} (hd : In ms t d) (hs : In ms t s)
    (hne : d ≠ s) : ∃ ms', ms.reattachChildren d s = some ms' ∧ Loose ms' ∧ Only t ms ms' := by
  unfold MemStore.reattachChildren
  rw [if_neg hne]
  exact ⟨_, rfl, move_loose L hd hs _ _⟩

theorem moveTemp_loose {ms : MemStore} (L : Loose ms) {t : ID} {d s : Addr} (hd : In ms t d) (hs : In ms t s) :
    Loose (ms.moveTempChildren d s) ∧ Only t ms (ms.moveTempChildren d s) := move_loose L hd hs _ _

theorem setTrace_loose {ms : MemStore} (L : Loose ms) {t : ID} {a : Addr} (ha : In ms t a) :
    Loose { ms with trace := ms.trace.set t a } ∧ Only t ms { ms with trace := ms.trace.set t a } := by
  refine ⟨⟨L.sub, ?_, L.span⟩, ⟨Nat.le_refl _, fun _ _ => rfl, fun _ _ _ => rfl, ?_, fun _ _ => rfl⟩⟩
  · intro t' x hx
    rw [AMap.get_set] at hx
    split at hx
    · rename_i e
      injection hx with hx
      subst hx e
      exact ha
    · exact L.trace t' x hx
  · intro t' ht
    exact AMap.get_set_ne _ _ (fun e => ht e.symm)

theorem fixRoot_loose {ms : MemStore} (L : Loose ms) {id : SpanID} {s r : Addr} (hs : In ms id.trace s)
    (hr : In ms id.trace r) : ∃ ms' r', ms.fixRoot id s r = some (ms', r') ∧ Loose ms' ∧ Only id.trace ms ms' ∧
      In ms' id.trace r' := by
  unfold MemStore.fixRoot
  split
  · rename_i hc
    obtain ⟨L1, O1⟩ := setTrace_loose L hs
    obtain ⟨ms2, e2, L2, O2⟩ := reattach_loose L1 (O1.isIn hs) (O1.isIn hr) hc.1
    have O12 := O1.trans O2
    obtain ⟨L3, O3⟩ := insert_loose L2 (O12.isIn hs) (O12.isIn hr)
    have O13 := O12.trans O3
    obtain ⟨L4, O4⟩ := moveTemp_loose L3 (O13.isIn hs) (O13.isIn hr)
    have O14 := O13.trans O4
    refine ⟨_, s, ?_, L4, O14, O14.isIn hs⟩
    simp only [e2]
  · exact ⟨ms, r, rfl, L, Only.refl _ _, hr⟩

theorem attach_tail_loose {ms : MemStore} (L : Loose ms) {id : SpanID} {s r : Addr} (hs : In ms id.trace s)
    (hr : In ms id.trace r) :
    ∃ ms', (match ms.fixRoot id s r with
      | none => none
      | some (ms, root) =>
        let ms := if id.isRoot = false ∧ s ≠ root then ms.insert root s else ms
        if s ≠ root then ms.reattachChildren s root else some ms) = some ms' ∧ Loose ms' ∧ Only id.trace ms ms' := by
  obtain ⟨ms1, r1, e1, L1, O1, hr1⟩ := fixRoot_loose L hs hr
  rw [e1]
  simp only
  obtain ⟨L2, O2⟩ : Loose (if id.isRoot = false ∧ s ≠ r1 then ms1.insert r1 s else ms1) ∧
      Only id.trace ms1 (if id.isRoot = false ∧ s ≠ r1 then ms1.insert r1 s else ms1) := by
    split
    · exact insert_loose L1 hr1 (O1.isIn hs)
    · exact ⟨L1, Only.refl _ _⟩
  generalize (if id.isRoot = false ∧ s ≠ r1 then ms1.insert r1 s else ms1) = ms2 at *
  have O02 := O1.trans O2
  by_cases hne : s = r1
  · rw [if_neg (fun h => h hne)]
    exact ⟨ms2, rfl, L2, O02⟩
  · rw [if_pos hne]
    obtain ⟨ms3, e3, L3, O3⟩ := reattach_loose L2 (O02.isIn hs) (O2.isIn hr1) hne
    exact ⟨ms3, e3, L3, O02.trans O3⟩

theorem attach_loose {ms : MemStore} (L : Loose ms) {id : SpanID} {s : Addr} (hs : In ms id.trace s) :
    ∃ ms', ms.attach id s = some ms' ∧ Loose ms' ∧ Only id.trace ms ms' := by
  unfold MemStore.attach
  cases hg : ms.trace.get id.trace with
  | some r => exact attach_tail_loose L hs (L.trace _ _ hg)
  | none =>
    obtain ⟨L1, O1⟩ := setTrace_loose L hs
    obtain ⟨ms', e, L', O'⟩ := attach_tail_loose L1 (O1.isIn hs) (O1.isIn hs)
    exact ⟨ms', e, L', O1.trans O'⟩

theorem collect_loose {ms : MemStore} (L : Loose ms) (id : SpanID) (as : List Annotation) :
    ∃ ms', ms.collect id as = some ms' ∧ Loose ms' ∧ Only id.trace ms ms' := by
  cases hg : AMap.get ((ms.span.get id.trace).getD []) id.span with
  | some s =>
    have hcol : ms.collect id as = some { ms with
        heap := heapUpd ms.heap s { ms.heap s with anns := (ms.heap s).anns ++ as } } := by
      simp only [MemStore.collect, hg]
    have hs : In ms id.trace s := by
      cases hm : ms.span.get id.trace with
      | none => simp [hm] at hg
      | some m =>
        rw [hm] at hg
        exact L.span _ _ _ _ hm hg
    have hid : ∀ x, (heapUpd ms.heap s { ms.heap s with anns := (ms.heap s).anns ++ as } x).id = (ms.heap x).id ∧
        (heapUpd ms.heap s { ms.heap s with anns := (ms.heap s).anns ++ as } x).sub = (ms.heap x).sub := by
      intro x
      simp only [heapUpd]
      split
      · rename_i e; rw [e]; exact ⟨rfl, rfl⟩
      · exact ⟨rfl, rfl⟩
    refine ⟨_, hcol, ⟨?_, ?_, ?_⟩, ⟨Nat.le_refl _, fun x _ => (hid x).1, ?_, fun _ _ => rfl, fun _ _ => rfl⟩⟩
    · intro x hx c hc
      simp only [(hid _).1, (hid _).2] at hc ⊢
      exact L.sub x hx c hc
    · intro t x hx
      simp only [(hid _).1]
      exact L.trace t x hx
    · intro t m s' x h1 h2
      simp only [(hid _).1]
      exact L.span t m s' x h1 h2
    · intro x _ hne
      have : x ≠ s := by rintro rfl; exact hne hs.2
      simp [heapUpd, this]
  | none =>
    let ms1 : MemStore := { ms with
      heap := heapUpd ms.heap ms.next { id := id, anns := as, sub := [] }
      next := ms.next + 1
      span := ms.span.set id.trace (AMap.set ((ms.span.get id.trace).getD []) id.span ms.next) }
    have hold : ∀ x, x < ms.next → ms1.heap x = ms.heap x := by
      intro x hx
      have : x ≠ ms.next := by omega
      simp [ms1, heapUpd, this]
    have hnew : ms1.heap ms.next = { id := id, anns := as, sub := [] } := by simp [ms1, heapUpd]
    have hn : ms1.next = ms.next + 1 := rfl
    have L1 : Loose ms1 := by
      refine ⟨?_, ?_, ?_⟩
      · intro x hx c hc
        by_cases e : x = ms.next
        · subst e
          rw [hnew] at hc
          cases hc
        · have hx' : x < ms.next := by omega
          rw [hold x hx'] at hc ⊢
          have := L.sub x hx' c hc
          rw [hold c this.1]
          exact ⟨by omega, this.2⟩
      · intro t x hx
        have := L.trace t x hx
        rw [hold x this.1]
        exact ⟨by omega, this.2⟩
      · intro t m s x h1 h2
        have hset : ms1.span = ms.span.set id.trace (AMap.set ((ms.span.get id.trace).getD []) id.span ms.next) := rfl
        rw [hset, AMap.get_set] at h1
        split at h1
        · rename_i e
          injection h1 with h1
          subst h1
          rw [AMap.get_set] at h2
          split at h2
          · injection h2 with h2
            subst h2
            rw [hnew]
            exact ⟨by omega, e⟩
          · cases hm : ms.span.get id.trace with
            | none => simp [hm] at h2
            | some m =>
              rw [hm] at h2
              have := L.span _ _ _ _ hm h2
              rw [hold x this.1]
              exact ⟨by omega, this.2.trans e⟩
        · have := L.span t m s x h1 h2
          rw [hold x this.1]
          exact ⟨by omega, this.2⟩
    have O1 : Only id.trace ms ms1 := by
      refine ⟨by omega, fun x hx => by rw [hold x hx], fun x hx _ => hold x hx, fun _ _ => rfl, ?_⟩
      intro t' ht
      exact AMap.get_set_ne _ _ (fun e => ht e.symm)
    have hs : In ms1 id.trace ms.next := ⟨by omega, by rw [hnew]⟩
    obtain ⟨ms', e, L', O'⟩ := attach_loose L1 hs
    refine ⟨ms', ?_, L', O1.trans O'⟩
    have hcol : ms.collect id as = ms1.attach id ms.next := by simp only [MemStore.collect, hg, ms1]
    rw [hcol]
    exact e

theorem delete_get : ∀ (ids : List ID) (ms : MemStore) (t : ID),
    (ms.delete ids).heap = ms.heap ∧ (ms.delete ids).next = ms.next ∧
    (ms.delete ids).trace.get t = (if t ∈ ids then none else ms.trace.get t) ∧
    (ms.delete ids).span.get t = (if t ∈ ids then none else ms.span.get t)
  | [], ms, t => by simp [MemStore.delete]
  | i :: ids, ms, t => by
    obtain ⟨h1, h2, h3, h4⟩ := delete_get ids { ms with trace := ms.trace.del i, span := ms.span.del i } t
    simp only [MemStore.delete]
    refine ⟨h1, h2, ?_, ?_⟩
    · rw [h3]
      simp only [AMap.get_del, List.mem_cons]
      by_cases e : t = i
      · subst e; simp
      · have : ¬ i = t := fun h => e h.symm
        simp [e, this]
    · rw [h4]
      simp only [AMap.get_del, List.mem_cons]
      by_cases e : t = i
      · subst e; simp
      · have : ¬ i = t := fun h => e h.symm
        simp [e, this]

theorem delete_loose {ms : MemStore} (L : Loose ms) (ids : List ID) : Loose (ms.delete ids) := by
  have h := fun t => delete_get ids ms t
  refine ⟨?_, ?_, ?_⟩
  · rw [(h 0).1, (h 0).2.1]; exact L.sub
  · intro t a ha
    rw [(h t).1, (h t).2.1]
    rw [(h t).2.2.1] at ha
    split at ha
    · cases ha
    · exact L.trace t a ha
  · intro t m s a h1 h2
    rw [(h t).1, (h t).2.1]
    rw [(h t).2.2.2] at h1
    split at h1
    · cases h1
    · exact L.span t m s a h1 h2

theorem step_loose {ms : MemStore} (L : Loose ms) (op : StoreOp) : ∃ ms', ms.step op = some ms' ∧ Loose ms' := by
  cases op with
  | collect id as =>
    obtain ⟨ms', e, L', -⟩ := collect_loose L id as
    exact ⟨ms', e, L'⟩
  | delete ids => exact ⟨_, rfl, delete_loose L ids⟩

theorem run_loose {ms : MemStore} (L : Loose ms) (ops : List StoreOp) : ∃ ms', ms.run ops = some ms' ∧ Loose ms' := by
  induction ops generalizing ms with
  | nil => exact ⟨ms, rfl, L⟩
  | cons op ops ih =>
    obtain ⟨ms1, e1, L1⟩ := step_loose L op
    obtain ⟨ms2, e2, L2⟩ := ih L1
    exact ⟨ms2, by simp [MemStore.run, e1, e2], L2⟩

/-- A trace that is absent, or in good order, behaves as in any other store, whatever happens to other traces. -/
theorem run_simT {ms : MemStore} (L : Loose ms) {t : ID} {o : Option ATrace} {M : List Entry} (S : SimT ms t o)
    (ho : o = ATrace.ofLive M) (ops : List StoreOp) :
    ∃ ms', ms.run ops = some ms' ∧ SimT ms' t (ATrace.ofLive (ops.foldl (liveStep t) M)) := by
  subst ho
  induction ops generalizing ms M with
  | nil => exact ⟨ms, rfl, S⟩
  | cons op ops ih =>
    cases op with
    | collect id as =>
      by_cases e : id.trace = t
      · subst e
        obtain ⟨tr, s, p⟩ := id
        obtain ⟨ms1, e1, S1, -⟩ := simT_collect S s p as
        obtain ⟨ms1', e1', L1, -⟩ := collect_loose L ⟨tr, s, p⟩ as
        rw [e1] at e1'
        injection e1' with e1'
        subst e1'
        have : some (ATrace.next (ATrace.ofLive M) s p as) = ATrace.ofLive (M ++ [(⟨tr, s, p⟩, as)]) := by
          rw [ofLive_append]
          unfold ATrace.next
          cases ATrace.ofLive M <;> rfl
        rw [this] at S1
        obtain ⟨ms2, e2, S2⟩ := ih L1 S1
        refine ⟨ms2, by simp [MemStore.run, MemStore.step, e1, e2], ?_⟩
        simpa [liveStep] using S2
      · obtain ⟨ms1, e1, L1, O1⟩ := collect_loose L id as
        have e' : t ≠ id.trace := fun h => e h.symm
        have S1 := S.frame O1.heap O1.next (O1.trace t e') (O1.span t e') e'
        obtain ⟨ms2, e2, S2⟩ := ih L1 S1
        refine ⟨ms2, by simp [MemStore.run, MemStore.step, e1, e2], ?_⟩
        simpa [liveStep, e] using S2
    | delete ids =>
      have L1 := delete_loose L ids
      obtain ⟨d1, d2, d3, d4⟩ := delete_get ids ms t
      by_cases e : t ∈ ids
      · have S1 : SimT (ms.delete ids) t (ATrace.ofLive []) := by
          rw [if_pos e] at d3 d4
          exact ⟨d3, d4⟩
        obtain ⟨ms2, e2, S2⟩ := ih L1 S1
        refine ⟨ms2, by simp [MemStore.run, MemStore.step, e2], ?_⟩
        simpa [liveStep, e] using S2
      · have S1 : SimT (ms.delete ids) t (ATrace.ofLive M) := by
          rw [if_neg e] at d3 d4
          revert S
          cases ATrace.ofLive M with
          | none => intro S; exact ⟨d3.trans S.1, d4.trans S.2⟩
          | some T =>
            rintro ⟨sm, ra, h1, h2, h3, R⟩
            exact ⟨sm, ra, d4.trans h1, d3.trans h2, h3, by rw [d1, d2]; exact R⟩
        obtain ⟨ms2, e2, S2⟩ := ih L1 S1
        refine ⟨ms2, by simp [MemStore.run, MemStore.step, e2], ?_⟩
        simpa [liveStep, e] using S2

/-- `HRep` for any list of calls. -/
theorem hrep_ofLive (M : List Entry) : HRep (ATrace.ofLive M) M := by
  induction M using List.reverseRecOn with
  | nil => rfl
  | append_singleton M e ih =>
    rw [ofLive_append]
    cases h : ATrace.ofLive M with
    | none =>
      rw [h] at ih
      have : M = [] := ih
      subst this
      exact HRep.fresh e.1 e.2
    | some T =>
      rw [h] at ih
      exact ih.collect e.1 e.2

/-- The view of a trace in good order depends on its calls only. -/
theorem view_simT {ms ms' : MemStore} {t : ID} {M : List Entry} (S : SimT ms t (ATrace.ofLive M))
    (S' : SimT ms' t (ATrace.ofLive M)) : ms.view t = ms'.view t := by
  have H := hrep_ofLive M
  cases h : ATrace.ofLive M with
  | none =>
    rw [h] at S S'
    simp [MemStore.view, MemStore.tracePtr, S.1, S'.1]
  | some T =>
    rw [h] at S S' H
    obtain ⟨tr, e1, e2⟩ := view_found S H.2.2.2.1
    obtain ⟨tr', e1', e2'⟩ := view_found S' H.2.2.2.1
    rw [e1, e1']
    have a := Forest.unfold_mono _ e2 (ms.next + ms'.next) (by omega)
    have b := Forest.unfold_mono _ e2' (ms.next + ms'.next) (by omega)
    rw [a] at b
    injection b with b
    rw [b]

/-! ## A store read from a file -/

theorem Holds.trace {h : Addr → Node} {lo hi : Nat} {a : Addr} {t : Tree} (H : Holds h lo hi a t) :
    (h a).id = t.span.id := by
  cases t
  simp only [Holds] at H
  exact H.2.2.1

mutual
theorem allocTree_sub (i : ID) : ∀ (t : Tree) (st : Heap), (∀ sp ∈ t.spans, sp.id.trace = i) →
    ∀ x, st.2 ≤ x → x < (allocTree t st).2.2 → ((allocTree t st).2.1 x).id.trace = i ∧
      ∀ c ∈ ((allocTree t st).2.1 x).sub, st.2 ≤ c ∧ c < (allocTree t st).2.2
  | .node s ts, st, hi => by
    obtain ⟨h1, h2, h3⟩ := allocTrees_spec ts st
    have ih := allocTrees_sub i ts st (fun sp hs => hi sp (by simp [Tree.spans, hs]))
    have e : (allocTree (.node s ts) st) = ((allocTrees ts st).2.2, (heapUpd (allocTrees ts st).2.1 (allocTrees ts st).2.2
      { id := s.id, anns := s.annotations, sub := (allocTrees ts st).1 }, (allocTrees ts st).2.2 + 1)) := rfl
    rw [e]
    intro x hx1 hx2
    simp only at hx2 ⊢
    by_cases ex : x = (allocTrees ts st).2.2
    · subst ex
      simp only [heapUpd, if_true]
      refine ⟨hi s (by simp [Tree.spans]), fun c hc => ?_⟩
      have := ih.2 c hc
      omega
    · simp only [heapUpd, ex, if_false]
      have := ih.1 x hx1 (by omega)
      refine ⟨this.1, fun c hc => ?_⟩
      have := this.2 c hc
      omega
theorem allocTrees_sub (i : ID) : ∀ (ts : List Tree) (st : Heap), (∀ sp ∈ Tree.spansList ts, sp.id.trace = i) →
    (∀ x, st.2 ≤ x → x < (allocTrees ts st).2.2 → ((allocTrees ts st).2.1 x).id.trace = i ∧
      ∀ c ∈ ((allocTrees ts st).2.1 x).sub, st.2 ≤ c ∧ c < (allocTrees ts st).2.2) ∧
    ∀ c ∈ (allocTrees ts st).1, st.2 ≤ c ∧ c < (allocTrees ts st).2.2
  | [], st, _ => by
    simp only [allocTrees]
    exact ⟨fun x h1 h2 => by omega, fun c hc => by cases hc⟩
  | t :: ts, st, hi => by
    obtain ⟨h1, h2, h3⟩ := allocTree_spec t st
    obtain ⟨k1, k2, k3⟩ := allocTrees_spec ts (allocTree t st).2
    have i1 := allocTree_sub i t st (fun sp hs => hi sp (by simp [Tree.spansList, hs]))
    have i2 := allocTrees_sub i ts (allocTree t st).2 (fun sp hs => hi sp (by simp [Tree.spansList, hs]))
    have e : allocTrees (t :: ts) st = ((allocTree t st).1 :: (allocTrees ts (allocTree t st).2).1,
      (allocTrees ts (allocTree t st).2).2) := rfl
    rw [e]
    simp only
    refine ⟨?_, ?_⟩
    · intro x hx1 hx2
      by_cases hx : x < (allocTree t st).2.2
      · rw [k2 x hx]
        have := i1 x hx1 hx
        refine ⟨this.1, fun c hc => ?_⟩
        have := this.2 c hc
        omega
      · have := i2.1 x (by omega) hx2
        refine ⟨this.1, fun c hc => ?_⟩
        have := this.2 c hc
        omega
    · intro c hc
      simp only [List.mem_cons] at hc
      rcases hc with rfl | hc
      · have := h3.bounds
        omega
      · have := i2.2 c hc
        omega
end

/-- The cells between `lo` and `hi` point to each other only, within one trace. -/
def Closed (h : Addr → Node) (lo hi : Nat) : Prop :=
  ∀ x, lo ≤ x → x < hi → ∀ c ∈ (h x).sub, lo ≤ c ∧ c < hi ∧ (h c).id.trace = (h x).id.trace

theorem allocTree_closed {t : Tree} {st : Heap} {i : ID} (hi : ∀ sp ∈ t.spans, sp.id.trace = i) :
    Closed (allocTree t st).2.1 st.2 (allocTree t st).2.2 := by
  intro x h1 h2 c hc
  have h := allocTree_sub i t st hi
  have hx := h x h1 h2
  have hb := hx.2 c hc
  exact ⟨hb.1, hb.2, (h c hb.1 hb.2).1.trans hx.1.symm⟩

theorem Closed.append {h h' : Addr → Node} {lo mid hi : Nat} (c1 : Closed h lo mid) (c2 : Closed h' mid hi)
    (hm : lo ≤ mid) (hh : mid ≤ hi) (e : ∀ x, x < mid → h' x = h x) : Closed h' lo hi := by
  intro x h1 h2 c hc
  by_cases hx : x < mid
  · rw [e x hx] at hc ⊢
    have := c1 x h1 hx c hc
    rw [e c this.2.1]
    exact ⟨this.1, by omega, this.2.2⟩
  · have := c2 x (by omega) h2 c hc
    exact ⟨by omega, this.2.1, this.2.2⟩

/-- Every tree of the map lies in one trace. -/
def Pure (m : AMap ID Tree) : Prop := ∀ p ∈ m, ∃ i, ∀ sp ∈ p.2.spans, sp.id.trace = i

theorem allocMap_closed : ∀ (m : AMap ID Tree) (st : Heap), Pure m →
    Closed (allocMap m st).2.1 st.2 (allocMap m st).2.2
  | [], st, _ => by
    intro x h1 h2
    simp only [allocMap] at h2
    omega
  | (k, t) :: m, st, hp => by
    obtain ⟨h1, h2, h3⟩ := allocTree_spec t st
    obtain ⟨k1, k2, -⟩ := allocMap_spec m (allocTree t st).2
    have e : allocMap ((k, t) :: m) st = ((k, (allocTree t st).1) :: (allocMap m (allocTree t st).2).1,
      (allocMap m (allocTree t st).2).2) := rfl
    rw [e]
    obtain ⟨i, hi⟩ : ∃ i, ∀ sp ∈ t.spans, sp.id.trace = i := hp (k, t) (by simp)
    exact Closed.append (allocTree_closed hi) (allocMap_closed m _ (fun p hm => hp p (by simp [hm]))) (by omega) k1 k2

theorem allocMaps_closed : ∀ (m : AMap ID (AMap ID Tree)) (st : Heap), (∀ p ∈ m, Pure p.2) →
    Closed (allocMaps m st).2.1 st.2 (allocMaps m st).2.2
  | [], st, _ => by
    intro x h1 h2
    simp only [allocMaps] at h2
    omega
  | (k, l) :: m, st, hp => by
    obtain ⟨h1, h2, -⟩ := allocMap_spec l st
    obtain ⟨k1, k2, -⟩ := allocMaps_spec m (allocMap l st).2
    have e : allocMaps ((k, l) :: m) st = ((k, (allocMap l st).1) :: (allocMaps m (allocMap l st).2).1,
      (allocMaps m (allocMap l st).2).2) := rfl
    rw [e]
    exact Closed.append (allocMap_closed l st (hp (k, l) (by simp))) (allocMaps_closed m _ (fun p hm => hp p (by simp [hm])))
      h1 k1 k2

mutual
theorem gobTree_spans : ∀ t : Tree, (gobTree t).spans = t.spans.map fun s => { s with annotations := s.annotations.map gobAnnotation }
  | .node s ts => by simp only [gobTree, Tree.spans, List.map_cons, gobTrees_spans ts]
theorem gobTrees_spans : ∀ ts : List Tree,
    Tree.spansList (gobTrees ts) = (Tree.spansList ts).map fun s => { s with annotations := s.annotations.map gobAnnotation }
  | [] => rfl
  | t :: ts => by simp only [gobTrees, Tree.spansList, List.map_append, gobTree_spans t, gobTrees_spans ts]
end

theorem gobTree_trace {t : Tree} {i : ID} (h : ∀ sp ∈ t.spans, sp.id.trace = i) :
    ∀ sp ∈ (gobTree t).spans, sp.id.trace = i := by
  rw [gobTree_spans]
  intro sp hs
  obtain ⟨s, h1, rfl⟩ := List.mem_map.1 hs
  exact h s h1

theorem span_mem (t : Tree) : t.span ∈ t.spans := by
  cases t
  simp [Tree.spans, Tree.span]

theorem run_span_rep {ops : List StoreOp} {ms : MemStore} (h : MemStore.new.run ops = some ms) {t : ID}
    {m : AMap ID Addr} (hm : ms.span.get t = some m) :
    ∃ T, ATrace.ofLive (live t ops) = some T ∧ Rep ms.heap ms.next t m T ∧ HRep (some T) (live t ops) ∧
      ∃ ra, ms.trace.get t = some ra ∧ m.get T.root = some ra := by
  obtain ⟨S, H⟩ := run_state h t
  cases ho : ATrace.ofLive (live t ops) with
  | none => rw [ho] at S; rw [S.2] at hm; cases hm
  | some T =>
    rw [ho] at S H
    obtain ⟨sm, ra, h1, h2, h3, R⟩ := S
    rw [hm] at h1
    injection h1 with h1
    subst h1
    exact ⟨T, rfl, R, H, ra, h2, h3⟩

theorem run_trace_rep {ops : List StoreOp} {ms : MemStore} (h : MemStore.new.run ops = some ms) {t : ID}
    {ra : Addr} (hm : ms.trace.get t = some ra) :
    ∃ T m, ms.span.get t = some m ∧ Rep ms.heap ms.next t m T ∧ m.get T.root = some ra := by
  obtain ⟨S, H⟩ := run_state h t
  cases ho : ATrace.ofLive (live t ops) with
  | none => rw [ho] at S; rw [S.1] at hm; cases hm
  | some T =>
    rw [ho] at S H
    obtain ⟨sm, ra', h1, h2, h3, R⟩ := S
    rw [hm] at h2
    injection h2 with h2
    subst h2
    exact ⟨T, sm, h1, R, h3⟩

/-! ## The span maps have unique keys -/

theorem reattach_span {ms ms' : MemStore} {d s : Addr} (h : ms.reattachChildren d s = some ms') : ms'.span = ms.span := by
  unfold MemStore.reattachChildren at h
  split at h
  · cases h
  · injection h with h
    rw [← h]; rfl

theorem insert_span (ms : MemStore) (r s : Addr) : (ms.insert r s).span = ms.span := by
  unfold MemStore.insert
  split <;> rfl

theorem fixRoot_span {ms ms' : MemStore} {id : SpanID} {s r r' : Addr} (h : ms.fixRoot id s r = some (ms', r')) :
    ms'.span = ms.span := by
  unfold MemStore.fixRoot at h
  split at h
  · simp only at h
    split at h
    · cases h
    · rename_i ms2 h2
      injection h with h
      injection h with h _
      rw [← h]
      show (MemStore.insert ms2 s r).span = ms.span
      rw [insert_span, reattach_span h2]
  · injection h with h
    injection h with h _
    rw [← h]

theorem attach_span {ms ms' : MemStore} {id : SpanID} {s : Addr} (h : ms.attach id s = some ms') :
    ms'.span = ms.span := by
  have main : ∀ (ms1 : MemStore) (r : Addr),
      (match ms1.fixRoot id s r with
      | none => none
      | some (ms, root) =>
        let ms := if id.isRoot = false ∧ s ≠ root then ms.insert root s else ms
        if s ≠ root then ms.reattachChildren s root else some ms) = some ms' →
      ms'.span = ms1.span := by
    intro ms1 r h1
    cases hf : ms1.fixRoot id s r with
    | none => rw [hf] at h1; cases h1
    | some q =>
      obtain ⟨ms2, r2⟩ := q
      rw [hf] at h1
      have hk2 := fixRoot_span hf
      simp only at h1
      have hk3 : (if id.isRoot = false ∧ s ≠ r2 then ms2.insert r2 s else ms2).span = ms1.span := by
        split
        · rw [insert_span]; exact hk2
        · exact hk2
      split at h1
      · rw [reattach_span h1]; exact hk3
      · injection h1 with h1
        rw [← h1]; exact hk3
  unfold MemStore.attach at h
  cases ht : ms.trace.get id.trace with
  | some r =>
    simp only [ht] at h
    exact main ms r h
  | none =>
    simp only [ht] at h
    exact main { ms with trace := ms.trace.set id.trace s } s h

/-- Unique keys in the span map and its inner maps. -/
def SpanKeys (m : AMap ID (AMap ID Addr)) : Prop :=
  (AMap.keys m).Nodup ∧ ∀ t l, m.get t = some l → (AMap.keys l).Nodup

theorem step_spanKeys {ms ms' : MemStore} {op : StoreOp} (h : ms.step op = some ms') (hk : SpanKeys ms.span) :
    SpanKeys ms'.span := by
  cases op with
  | collect id as =>
    simp only [MemStore.step, MemStore.collect] at h
    split at h
    · injection h with h; rw [← h]; exact hk
    · rw [attach_span h]
      refine ⟨AMap.nodup_keys_set _ _ _ hk.1, ?_⟩
      intro t l hl
      rw [AMap.get_set] at hl
      split at hl
      · injection hl with hl
        subst hl
        apply AMap.nodup_keys_set
        cases hm : ms.span.get id.trace with
        | none => simp [AMap.keys]
        | some m => exact hk.2 _ _ hm
      · exact hk.2 t l hl
  | delete ids =>
    simp only [MemStore.step] at h
    injection h with h
    rw [← h]
    clear h
    induction ids generalizing ms with
    | nil => exact hk
    | cons i ids ih =>
      refine ih (ms := { ms with trace := ms.trace.del i, span := ms.span.del i }) ⟨AMap.nodup_keys_del _ _ hk.1, ?_⟩
      intro t l hl
      simp only [AMap.get_del] at hl
      split at hl
      · cases hl
      · exact hk.2 t l hl

theorem run_spanKeys {ops : List StoreOp} : ∀ {ms ms' : MemStore}, ms.run ops = some ms' → SpanKeys ms.span →
    SpanKeys ms'.span := by
  induction ops with
  | nil => intro ms ms' h hk; injection h with h; rw [← h]; exact hk
  | cons op ops ih =>
    intro ms ms' h hk
    simp only [MemStore.run] at h
    split at h
    · cases h
    · rename_i ms1 h1
      exact ih h (step_spanKeys h1 hk)

/-! ## Reading back gives a loose store -/

theorem encodeMap_pure {h : Addr → Node} {fuel : Nat} {m : AMap ID Addr} {l : AMap ID Tree}
    (he : MemStore.encodeMap h fuel m = some l) (hn : (AMap.keys m).Nodup)
    (hp : ∀ k a tr, m.get k = some a → unfoldNode h fuel a = some tr → ∃ i, ∀ sp ∈ tr.spans, sp.id.trace = i) :
    Pure l := by
  obtain ⟨-, h2, h3, h4⟩ := encodeMap_spec he
  rintro ⟨k, t⟩ hm
  have hg : l.get k = some t := AMap.get_of_mem (by rw [h2]; exact hn) hm
  cases hk : m.get k with
  | none => rw [h3 k hk] at hg; cases hg
  | some a =>
    obtain ⟨tr, e1, e2⟩ := h4 k a hk
    rw [hg] at e2
    injection e2 with e2
    subst e2
    obtain ⟨i, hi⟩ := hp k a tr hk e1
    exact ⟨i, gobTree_trace hi⟩

/-- Unfolding any node of a trace gives spans of that trace only. -/
theorem Loose.unfold_trace {ms : MemStore} (L : Loose ms) {t : ID} : ∀ (fuel : Nat) {a : Addr} {tr : Tree}, In ms t a →
    unfoldNode ms.heap fuel a = some tr → ∀ sp ∈ tr.spans, sp.id.trace = t := by
  intro fuel
  induction fuel with
  | zero => intro a tr _ hu; cases hu
  | succ fuel ih =>
    intro a tr ha hu
    simp only [unfoldNode] at hu
    split at hu
    · cases hu
    · rename_i ts hts
      injection hu with hu
      subst hu
      simp only [Tree.spans, List.mem_cons, forall_eq_or_imp]
      refine ⟨ha.2, ?_⟩
      have hcl : ∀ c ∈ (ms.heap a).sub, In ms t c := fun c hc => L.child ha hc
      generalize (ms.heap a).sub = cs at hts hcl
      induction cs generalizing ts with
      | nil => rw [Forest.mapM_nil_some hts]; simp [Tree.spansList]
      | cons c cs ih2 =>
        obtain ⟨y, ys, h1, h2, rfl⟩ := Forest.mapM_cons_some hts
        simp only [Tree.spansList, List.mem_append]
        rintro sp (h | h)
        · exact ih (hcl c (by simp)) h1 sp h
        · exact ih2 ys h2 (fun c hc => hcl c (by simp [hc])) sp h

/-- A node that needs depth `fuel + 1` to unfold has that many distinct nodes below it. -/
theorem deep_nodes {h : Addr → Node} {n : Nat} (hcl : ∀ a, a < n → ∀ c ∈ (h a).sub, c < n) :
    ∀ (fuel : Nat) (a : Addr), a < n → (∃ tr, unfoldNode h (fuel + 1) a = some tr) → unfoldNode h fuel a = none →
    ∃ l : List Addr, l.length = fuel + 1 ∧ l.Nodup ∧ ∀ y ∈ l, y < n ∧ ∃ tr, unfoldNode h (fuel + 1) y = some tr
  | 0, a, ha, h1, _ => ⟨[a], rfl, by simp, by intro y hy; rw [List.mem_singleton] at hy; subst hy; exact ⟨ha, h1⟩⟩
  | fuel + 1, a, ha, ⟨tr, h1⟩, h2 => by
    have hch : ∀ c ∈ (h a).sub, ∃ t, unfoldNode h (fuel + 1) c = some t := by
      simp only [unfoldNode] at h1
      split at h1
      · cases h1
      · rename_i ts hts
        clear h1 h2
        intro c hc
        generalize (h a).sub = cs at hts hc
        induction cs generalizing ts with
        | nil => cases hc
        | cons x cs ih =>
          obtain ⟨y, ys, e1, e2, rfl⟩ := Forest.mapM_cons_some hts
          rcases List.mem_cons.1 hc with rfl | hc
          · exact ⟨y, e1⟩
          · exact ih ys e2 hc
    have hex : ∃ c ∈ (h a).sub, unfoldNode h fuel c = none := by
      by_contra hno
      have hall : ∀ c ∈ (h a).sub, ∃ t, unfoldNode h fuel c = some t := by
        intro c hc
        cases hu : unfoldNode h fuel c with
        | none => exact absurd ⟨c, hc, hu⟩ hno
        | some t => exact ⟨t, rfl⟩
      obtain ⟨ts, hts⟩ := Forest.mapM_isSome _ _ hall
      simp only [unfoldNode, hts] at h2
      cases h2
    obtain ⟨c, hc, hcn⟩ := hex
    obtain ⟨l, l1, l2, l3⟩ := deep_nodes hcl fuel c (hcl a ha c hc) (hch c hc) hcn
    refine ⟨a :: l, by simp [l1], List.nodup_cons.2 ⟨?_, l2⟩, ?_⟩
    · intro hal
      obtain ⟨-, tr', e⟩ := l3 a hal
      rw [e] at h2
      cases h2
    · intro y hy
      rcases List.mem_cons.1 hy with rfl | hy
      · exact ⟨ha, tr, h1⟩
      · obtain ⟨e1, tr', e2⟩ := l3 y hy
        exact ⟨e1, tr', unfoldNode_mono e2 _ (by omega)⟩

theorem nodup_lt_length {l : List Nat} {n : Nat} (hn : l.Nodup) (hl : ∀ y ∈ l, y < n) : l.length ≤ n := by
  have := (List.subperm_of_subset hn (l₂ := List.range n) (fun y hy => List.mem_range.2 (hl y hy))).length_le
  simpa using this

/-- Whatever unfolds at all, unfolds within as many steps as there are nodes. -/
theorem unfold_within {h : Addr → Node} {n : Nat} (hcl : ∀ a, a < n → ∀ c ∈ (h a).sub, c < n) {a : Addr} (ha : a < n) :
    ∀ (fuel : Nat) {tr : Tree}, unfoldNode h fuel a = some tr → unfoldNode h n a = some tr
  | 0, tr, e => by cases e
  | fuel + 1, tr, e => by
    by_cases hle : fuel + 1 ≤ n
    · exact unfoldNode_mono e _ hle
    · cases hu : unfoldNode h fuel a with
      | none =>
        obtain ⟨l, l1, l2, l3⟩ := deep_nodes hcl fuel a ha ⟨tr, e⟩ hu
        have := nodup_lt_length l2 (fun y hy => (l3 y hy).1)
        omega
      | some t' =>
        rw [unfoldNode_unique e hu]
        exact unfold_within hcl ha fuel hu

/-- What holds in every store, restarted or not. -/
structure Sound (ms : MemStore) : Prop where
  loose : Loose ms
  keysT : (AMap.keys ms.trace).Nodup
  keysS : SpanKeys ms.span

theorem new_loose : Loose MemStore.new where
  sub a h := absurd h (Nat.not_lt_zero _)
  trace t a h := by cases h
  span t m s a h := by cases h

theorem new_sound : Sound MemStore.new :=
  ⟨new_loose, by simp [MemStore.new, AMap.keys], by simp [MemStore.new, AMap.keys], by intro t l hl; cases hl⟩

theorem Sound.step {ms ms' : MemStore} {op : StoreOp} (S : Sound ms) (h : ms.step op = some ms') : Sound ms' := by
  obtain ⟨ms1, e, L⟩ := step_loose S.loose op
  rw [h] at e
  injection e with e
  subst e
  exact ⟨L, step_keys h S.keysT, step_spanKeys h S.keysS⟩

theorem Sound.run {ops : List StoreOp} : ∀ {ms ms' : MemStore}, Sound ms → ms.run ops = some ms' → Sound ms' := by
  induction ops with
  | nil => intro ms ms' S h; injection h with h; rw [← h]; exact S
  | cons op ops ih =>
    intro ms ms' S h
    simp only [MemStore.run] at h
    split at h
    · cases h
    · rename_i ms1 h1
      exact ih (S.step h1) h

theorem readFrom_sound {ms : MemStore} (S : Sound ms) {d : GobData}
    (hw : ms.Writes d) {dst : MemStore} (hd : Loose dst) : Sound (dst.readFrom (some d)).1 := by
  obtain ⟨fuel, hw⟩ := hw
  obtain ⟨w1, w2⟩ := write_inv hw
  obtain ⟨-, t1, t2, t3⟩ := encodeMap_spec w1
  obtain ⟨s1, s2, s3⟩ := encodeMaps_spec w2
  have nT := S.keysT
  have nS := S.keysS
  have pT : ∀ k a tr, ms.trace.get k = some a → unfoldNode ms.heap fuel a = some tr →
      ∀ sp ∈ tr.spans, sp.id.trace = k := by
    intro k a tr hk hu
    exact S.loose.unfold_trace fuel (S.loose.trace k a hk) hu
  have pS : ∀ k m s a tr, ms.span.get k = some m → m.get s = some a → unfoldNode ms.heap fuel a = some tr →
      ∀ sp ∈ tr.spans, sp.id.trace = k := by
    intro k m s a tr hk hs hu
    exact S.loose.unfold_trace fuel (S.loose.span k m s a hk hs) hu
  have P1 : Pure d.trace := encodeMap_pure w1 nT (fun k a tr h1 h2 => ⟨k, pT k a tr h1 h2⟩)
  have P2 : ∀ p ∈ d.span, Pure p.2 := by
    rintro ⟨k, l⟩ hm
    have hg : d.span.get k = some l := AMap.get_of_mem (by rw [s1]; exact nS.1) hm
    cases hk : ms.span.get k with
    | none => rw [s2 k hk] at hg; cases hg
    | some m =>
      obtain ⟨l', e1, e2⟩ := s3 k m hk
      rw [hg] at e2
      injection e2 with e2
      subst e2
      exact encodeMap_pure e1 (nS.2 _ _ hk) (fun s a tr h1 h2 => ⟨k, pS k m s a tr hk h1 h2⟩)
  obtain ⟨a1, a2, a3, a4, a5, a6⟩ := allocMap_spec d.trace (dst.heap, dst.next)
  obtain ⟨b1, b2, b3, b4, b5⟩ := allocMaps_spec d.span (allocMap d.trace (dst.heap, dst.next)).2
  have c1 := allocMap_closed d.trace (dst.heap, dst.next) P1
  have c2 := allocMaps_closed d.span (allocMap d.trace (dst.heap, dst.next)).2 P2
  have c0 : Closed dst.heap 0 dst.next := by
    intro x _ hx c hc
    have := hd.sub x hx c hc
    exact ⟨Nat.zero_le _, this.1, this.2⟩
  have c := (c0.append c1 (Nat.zero_le _) a1 a2).append c2 (Nat.zero_le _) b1 b2
  unfold MemStore.readFrom
  simp only
  refine ⟨⟨?_, ?_, ?_⟩, by rw [a4, t1]; exact nT, by rw [b3, s1]; exact nS.1, ?_⟩
  · intro x hx c' hc
    have := c x (Nat.zero_le _) hx c' hc
    exact this.2
  · intro t a ha
    simp only at ha ⊢
    cases hg : d.trace.get t with
    | none => rw [a5 t hg] at ha; cases ha
    | some tr =>
      obtain ⟨a', e1, e2, -⟩ := a6 t tr hg
      rw [ha] at e1
      injection e1 with e1
      subst e1
      have hb := e2.bounds
      refine ⟨Nat.lt_of_lt_of_le hb.2 b1, ?_⟩
      rw [b2 a hb.2, e2.trace]
      cases hk : ms.trace.get t with
      | none => rw [t2 t hk] at hg; cases hg
      | some x =>
        obtain ⟨tr', f1, f2⟩ := t3 t x hk
        rw [hg] at f2
        injection f2 with f2
        subst f2
        exact gobTree_trace (pT t x tr' hk f1) _ (span_mem _)
  · intro t m s a h1 h2
    simp only at h1 ⊢
    cases hg : d.span.get t with
    | none => rw [b4 t hg] at h1; cases h1
    | some l =>
      obtain ⟨l', e1, e2, e3⟩ := b5 t l hg
      rw [h1] at e1
      injection e1 with e1
      subst e1
      cases hk : ms.span.get t with
      | none => rw [s2 t hk] at hg; cases hg
      | some m0 =>
        obtain ⟨l0, f1, f2⟩ := s3 t m0 hk
        rw [hg] at f2
        injection f2 with f2
        subst f2
        obtain ⟨-, q1, q2, q3⟩ := encodeMap_spec f1
        have hl : ∃ tr, l.get s = some tr := by
          have : s ∈ AMap.keys m := (AMap.mem_keys_iff_exists _ _).2 ⟨a, h2⟩
          rw [e2] at this
          exact (AMap.mem_keys_iff_exists _ _).1 this
        obtain ⟨tr, hl⟩ := hl
        obtain ⟨a', g1, g2⟩ := e3 s tr hl
        rw [h2] at g1
        injection g1 with g1
        subst g1
        refine ⟨g2.bounds.2, ?_⟩
        rw [g2.trace]
        cases hs : m0.get s with
        | none => rw [q2 s hs] at hl; cases hl
        | some x =>
          obtain ⟨tr', r1, r2⟩ := q3 s x hs
          rw [hl] at r2
          injection r2 with r2
          subst r2
          exact gobTree_trace (pS t m0 s x tr' hk hs r1) _ (span_mem _)
  · intro t m h1
    cases hg : d.span.get t with
    | none => rw [b4 t hg] at h1; cases h1
    | some l =>
      obtain ⟨l', e1, e2, e3⟩ := b5 t l hg
      rw [h1] at e1
      injection e1 with e1
      subst e1
      cases hk : ms.span.get t with
      | none => rw [s2 t hk] at hg; cases hg
      | some m0 =>
        obtain ⟨l0, f1, f2⟩ := s3 t m0 hk
        rw [hg] at f2
        injection f2 with f2
        subst f2
        obtain ⟨-, q1, -, -⟩ := encodeMap_spec f1
        rw [e2, q1]
        exact nS.2 t m0 hk

/-- A trace absent from the written store is absent afterwards. -/
theorem readFrom_absent {ms : MemStore} {d : GobData} (hw : ms.Writes d) (dst : MemStore) {t : ID}
    (h1 : ms.trace.get t = none) (h2 : ms.span.get t = none) :
    SimT (dst.readFrom (some d)).1 t (ATrace.ofLive []) := by
  obtain ⟨fuel, hw⟩ := hw
  obtain ⟨w1, w2⟩ := write_inv hw
  obtain ⟨-, -, t2, -⟩ := encodeMap_spec w1
  obtain ⟨-, s2, -⟩ := encodeMaps_spec w2
  obtain ⟨-, -, -, -, a5, -⟩ := allocMap_spec d.trace (dst.heap, dst.next)
  obtain ⟨-, -, -, b4, -⟩ := allocMaps_spec d.span (allocMap d.trace (dst.heap, dst.next)).2
  exact ⟨a5 t (t2 t h1), b4 t (s2 t h2)⟩

/-- What `Trace` answers after `ReadFrom`. -/
theorem readFrom_view {ms : MemStore} (S : Sound ms) {d : GobData} (hw : ms.Writes d) (dst : MemStore) (t : ID) :
    (ms.view t = .notFound ∧ (dst.readFrom (some d)).1.view t = .notFound) ∨
    (∃ tr, ms.view t = .found tr ∧ (dst.readFrom (some d)).1.view t = .found (gobTree tr)) := by
  obtain ⟨fuel, hw⟩ := hw
  obtain ⟨w1, w2⟩ := write_inv hw
  obtain ⟨-, -, e3, e4⟩ := encodeMap_spec w1
  obtain ⟨a1, a2, a3, a4, a5, a6⟩ := allocMap_spec d.trace (dst.heap, dst.next)
  obtain ⟨b1, b2, -⟩ := allocMaps_spec d.span (allocMap d.trace (dst.heap, dst.next)).2
  cases hp : ms.trace.get t with
  | none =>
    left
    refine ⟨by simp [MemStore.view, MemStore.tracePtr, hp], ?_⟩
    have := a5 t (e3 t hp)
    simp [MemStore.view, MemStore.tracePtr, MemStore.readFrom, this]
  | some a =>
    right
    obtain ⟨tr, f1, f2⟩ := e4 t a hp
    obtain ⟨a', g1, g2, g3⟩ := a6 t _ f2
    refine ⟨tr, ?_, ?_⟩
    · rw [view_eq_of_get hp]
      exact unfold_within (fun x hx c hc => (S.loose.sub x hx c hc).1) (S.loose.trace t a hp).1 fuel f1
    · have hh := Holds.unfold _ _ (Holds.frame (fun x _ hx => b2 x hx) (Nat.le_refl _) b1 _ _ g2) _
        (Nat.le_trans g3 b1)
      simp only [MemStore.view, MemStore.tracePtr, MemStore.readFrom, g1, hh]

/-- Calls that neither collect nor delete `t` leave its tree alone. -/
theorem run_view_other {t : ID} {tr : Tree} : ∀ (ops : List StoreOp) {ms : MemStore}, Loose ms → ¬ Collects t ops →
    ¬ Deletes t ops → ms.view t = .found tr → ∃ ms', ms.run ops = some ms' ∧ ms'.view t = .found tr := by
  intro ops
  induction ops with
  | nil => intro ms L _ _ hv; exact ⟨ms, rfl, hv⟩
  | cons op ops ih =>
    intro ms L hc hd hv
    have hc' : ¬ Collects t ops := fun ⟨id, as, h1, h2⟩ => hc ⟨id, as, by simp [h1], h2⟩
    have hd' : ¬ Deletes t ops := fun ⟨ids, h1, h2⟩ => hd ⟨ids, by simp [h1], h2⟩
    have hp : ∃ a, ms.trace.get t = some a := by
      cases hg : ms.trace.get t with
      | none => simp [MemStore.view, MemStore.tracePtr, hg] at hv
      | some a => exact ⟨a, rfl⟩
    obtain ⟨a, ha⟩ := hp
    have hu := (view_eq_of_get ha).1 hv
    have key : ∃ ms1, ms.step op = some ms1 ∧ Loose ms1 ∧ ms1.view t = .found tr := by
      cases op with
      | collect id as =>
        obtain ⟨ms1, e1, L1, O1⟩ := collect_loose L id as
        have e' : t ≠ id.trace := fun h => hc ⟨id, as, by simp, h.symm⟩
        refine ⟨ms1, e1, L1, ?_⟩
        rw [view_eq_of_get ((O1.trace t e').trans ha)]
        have : unfoldNode ms1.heap ms.next a = some tr := by
          rw [← hu]
          refine unfoldNode_congr (In ms t) (fun x hx => O1.heap x hx.1 (by rw [hx.2]; exact e'))
            (fun x hx c hc => L.child hx hc) _ a (L.trace t a ha)
        exact unfoldNode_mono this _ O1.next
      | delete ids =>
        obtain ⟨d1, d2, d3, d4⟩ := delete_get ids ms t
        refine ⟨_, rfl, delete_loose L ids, ?_⟩
        rw [if_neg (fun h => hd ⟨ids, by simp, h⟩)] at d3
        rw [view_eq_of_get (d3.trans ha), d1, d2]
        exact hu
    obtain ⟨ms1, e1, L1, v1⟩ := key
    obtain ⟨ms2, e2, v2⟩ := ih L1 hc' hd' v1
    exact ⟨ms2, by simp [MemStore.run, e1, e2], v2⟩

/-- The same when `t` is absent. -/
theorem live_of_not {t : ID} (ops : List StoreOp) (M : List Entry) (hc : ¬ Collects t ops) (hd : ¬ Deletes t ops) :
    ops.foldl (liveStep t) M = M := by
  induction ops generalizing M with
  | nil => rfl
  | cons op ops ih =>
    have hc' : ¬ Collects t ops := fun ⟨id, as, h1, h2⟩ => hc ⟨id, as, by simp [h1], h2⟩
    have hd' : ¬ Deletes t ops := fun ⟨ids, h1, h2⟩ => hd ⟨ids, by simp [h1], h2⟩
    rw [List.foldl_cons]
    cases op with
    | collect id as => rw [liveStep, if_neg (fun e => hc ⟨id, as, by simp, e⟩)]; exact ih M hc' hd'
    | delete ids => rw [liveStep, if_neg (fun e => hd ⟨ids, by simp, e⟩)]; exact ih M hc' hd'

/-- A deleted trace is in good order again, whatever the state before. -/
theorem run_deletes {ms : MemStore} (L : Loose ms) {t : ID} {ops : List StoreOp} (hd : Deletes t ops) :
    ∃ ms', ms.run ops = some ms' ∧ ∀ M, SimT ms' t (ATrace.ofLive (ops.foldl (liveStep t) M)) := by
  obtain ⟨ids, h1, h2⟩ := hd
  obtain ⟨o1, o2, rfl⟩ := List.append_of_mem h1
  obtain ⟨ms1, e1, L1⟩ := run_loose L o1
  obtain ⟨d1, d2, d3, d4⟩ := delete_get ids ms1 t
  rw [if_pos h2] at d3 d4
  have S : SimT (ms1.delete ids) t (ATrace.ofLive []) := ⟨d3, d4⟩
  obtain ⟨ms2, e2, S2⟩ := run_simT (delete_loose L1 ids) S rfl o2
  refine ⟨ms2, ?_, ?_⟩
  · rw [run_append, e1]
    simpa [MemStore.run, MemStore.step] using e2
  · intro M
    rw [List.foldl_append, List.foldl_cons]
    simpa [liveStep, h2] using S2

end Appdash
