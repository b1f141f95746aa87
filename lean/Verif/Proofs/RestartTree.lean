import Verif.Proofs.RestartCollect

/-! # The state of a trace after a restart, call by call -/

namespace Appdash

open Spec

/-- The nodes that can be shown: those of the tree read from the file, and those made since. -/
def Vis (V0 : Addr → Prop) (L1 : List Entry) (sm : AMap ID Addr) (a : Addr) : Prop :=
  V0 a ∨ ∃ s, ¬ Collected L1 s ∧ sm.get s = some a

/-- What is known of the tree read from the file. -/
structure Base (L1 : List Entry) (V0 : Addr → Prop) (id0 : Addr → SpanID) (fix : Addr → Option Addr) (r0 : Addr) :
    Prop where
  root : V0 r0
  decl : ∀ a, V0 a → declaredParent L1 (id0 a).span = some (id0 a).parent
  uniq : ∀ a b, V0 a → V0 b → (id0 a).span = (id0 b).span → a = b
  fixO : ∀ x y, fix x = some y → V0 x ∧ V0 y ∧ x ≠ r0 ∧ (id0 x).parent = (id0 y).span
  fixN : ∀ x, V0 x → x ≠ r0 → fix x = none → ¬ Collected L1 (id0 x).parent
  has : ∀ s p, declaredParent L1 s = some p → (¬ Collected L1 p ∨ ∃ y, V0 y ∧ (id0 y).span = p) →
    ∃ x, V0 x ∧ (id0 x).span = s

/-- The state of trace `t`: `L1` are the calls before the restart, `M` those after it. -/
structure After (ms : MemStore) (t : ID) (L1 M : List Entry) (V0 : Addr → Prop) (id0 : Addr → SpanID)
    (fix : Addr → Option Addr) (r0 : Addr) (sm : AMap ID Addr) (r : Addr) : Prop where
  loose : Loose ms
  span : ms.span.get t = some sm
  trace : ms.trace.get t = some r
  dom : ∀ s, Collected (L1 ++ M) s ↔ sm.get s ≠ none
  hidden : ∀ s a, Collected L1 s → sm.get s = some a → ¬ Vis V0 L1 sm a
  isIn : ∀ a, Vis V0 L1 sm a → In ms t a
  p : PInv (Vis V0 L1 sm) (subsOf ms) fix sm.get (fun a => (ms.heap a).id.parent) (fun a => (ms.heap a).id.span) r
  node0 : ∀ a, V0 a → (ms.heap a).id = id0 a ∧ (ms.heap a).anns = (annotationsOf L1 (id0 a).span).map gobAnnotation
  new : ∀ s a, ¬ Collected L1 s → sm.get s = some a → ∃ p, declaredParent (L1 ++ M) s = some p ∧
    (ms.heap a).id = ⟨t, s, p⟩ ∧ (ms.heap a).anns = annotationsOf M s
  rootO : r = r0 ∨ ∃ s, ¬ Collected L1 s ∧ sm.get s = some r
  rootL : (∀ e ∈ L1 ++ M, e.1.span ≠ 0) → ∀ i, lastRoot (L1 ++ M) = some i → (ms.heap r).id.span = i

theorem collected_append (L M : List Entry) (s : ID) : Collected (L ++ M) s ↔ Collected L s ∨ Collected M s := by
  unfold Collected
  constructor
  · rintro ⟨e, he, h⟩
    rcases List.mem_append.1 he with he | he
    · exact Or.inl ⟨e, he, h⟩
    · exact Or.inr ⟨e, he, h⟩
  · rintro (⟨e, he, h⟩ | ⟨e, he, h⟩)
    · exact ⟨e, List.mem_append_left _ he, h⟩
    · exact ⟨e, List.mem_append_right _ he, h⟩

theorem declaredParent_append_of {L M : List Entry} {s p : ID} (h : declaredParent L s = some p) :
    declaredParent (L ++ M) s = some p := by
  induction L with
  | nil => cases h
  | cons e L ih =>
    simp only [declaredParent, List.cons_append] at h ⊢
    split
    · rename_i h1; rw [if_pos h1] at h; exact h
    · rename_i h1; rw [if_neg h1] at h; exact ih h

section
variable {ms : MemStore} {t : ID} {L1 M : List Entry} {V0 : Addr → Prop} {id0 : Addr → SpanID}
  {fix : Addr → Option Addr} {r0 : Addr} {sm : AMap ID Addr} {r : Addr}

/-- Calls that do not concern the trace. -/
theorem After.frame (A : After ms t L1 M V0 id0 fix r0 sm r) {ms' : MemStore} (L : Loose ms') (hn : ms.next ≤ ms'.next)
    (hh : ∀ a, In ms t a → ms'.heap a = ms.heap a) (hs : ms'.span.get t = ms.span.get t)
    (ht : ms'.trace.get t = ms.trace.get t) : After ms' t L1 M V0 id0 fix r0 sm r := by
  have hV : ∀ a, Vis V0 L1 sm a → ms'.heap a = ms.heap a := fun a ha => hh a (A.isIn a ha)
  refine ⟨L, hs.trans A.span, ht.trans A.trace, A.dom, A.hidden, ?_, ?_, ?_, ?_, A.rootO, ?_⟩
  · intro a ha
    have := A.isIn a ha
    exact ⟨Nat.lt_of_lt_of_le this.1 hn, by rw [hV a ha]; exact this.2⟩
  · exact A.p.congr (fun _ => Iff.rfl) (fun a ha => by simp only [subsOf, hV a ha]) (fun _ => rfl)
      (fun a ha => by rw [hV a ha]) (fun a ha => by rw [hV a ha])
  · intro a ha
    rw [hV a (Or.inl ha)]
    exact A.node0 a ha
  · intro s a h1 h2
    rw [hV a (Or.inr ⟨s, h1, h2⟩)]
    exact A.new s a h1 h2
  · rw [hV r A.p.root]
    exact A.rootL

/-- A call for a span that is already there. -/
theorem After.again (B : Base L1 V0 id0 fix r0) (A : After ms t L1 M V0 id0 fix r0 sm r) {id : SpanID} (hid : id.trace = t)
    (as : List Annotation)
    {s : Addr} (hs : sm.get id.span = some s) {ms' : MemStore} (hc : ms.collect id as = some ms') :
    After ms' t L1 (M ++ [(id, as)]) V0 id0 fix r0 sm r := by
  obtain ⟨ms1, e1, L', -⟩ := collect_loose A.loose id as
  rw [hc] at e1
  injection e1 with e1
  subst e1
  have hms : ms' = { ms with heap := heapUpd ms.heap s { ms.heap s with anns := (ms.heap s).anns ++ as } } := by
    simp only [MemStore.collect, hid, A.span, Option.getD_some, hs] at hc
    injection hc with hc
    exact hc.symm
  have hidx : ∀ x, (ms'.heap x).id = (ms.heap x).id := by
    intro x
    rw [hms]
    simp only [heapUpd]
    split
    · rename_i e; rw [e]
    · rfl
  have hsub : ∀ x, (ms'.heap x).sub = (ms.heap x).sub := by
    intro x
    rw [hms]
    simp only [heapUpd]
    split
    · rename_i e; rw [e]
    · rfl
  have hann : ∀ x, (ms'.heap x).anns = if x = s then (ms.heap x).anns ++ as else (ms.heap x).anns := by
    intro x
    rw [hms]
    simp only [heapUpd]
    split
    · rename_i e; rw [e]
    · rfl
  have hspan : ms'.span = ms.span := by rw [hms]
  have htrace : ms'.trace = ms.trace := by rw [hms]
  have hnext : ms'.next = ms.next := by rw [hms]
  have hcol : Collected (L1 ++ M) id.span := (A.dom _).2 (by rw [hs]; simp)
  have hdp : ∀ x, declaredParent (L1 ++ (M ++ [(id, as)])) x = declaredParent (L1 ++ M) x := by
    intro x
    rw [← List.append_assoc, declaredParent_append]
    cases h : declaredParent (L1 ++ M) x with
    | some p => rfl
    | none =>
      have : id.span ≠ x := by
        rintro rfl
        exact (not_collected_iff _ _).2 h hcol
      simp [this]
  have hcl : ∀ x, Collected (L1 ++ (M ++ [(id, as)])) x ↔ Collected (L1 ++ M) x := by
    intro x
    rw [collected_iff, collected_iff, hdp]
  refine ⟨L', by rw [hspan]; exact A.span, by rw [htrace]; exact A.trace, fun x => (hcl x).trans (A.dom x), A.hidden, ?_, ?_,
    ?_, ?_, A.rootO, ?_⟩
  · intro a ha
    have := A.isIn a ha
    exact ⟨by rw [hnext]; exact this.1, by rw [hidx]; exact this.2⟩
  · exact A.p.congr (fun _ => Iff.rfl) (fun a _ => hsub a) (fun _ => rfl) (fun a _ => by rw [hidx]) (fun a _ => by rw [hidx])
  · intro a ha
    rw [hidx, hann]
    have : a ≠ s := by
      rintro rfl
      by_cases ho : Collected L1 id.span
      · exact A.hidden _ _ ho hs (Or.inl ha)
      · obtain ⟨p, -, h2, -⟩ := A.new _ _ ho hs
        have h3 := (A.node0 a ha).1
        rw [h2] at h3
        have h4 := B.decl a ha
        rw [← h3] at h4
        exact ho ((collected_iff _ _).2 (by rw [h4]; rfl))
    rw [if_neg this]
    exact A.node0 a ha
  · intro i a h1 h2
    obtain ⟨p, q1, q2, q3⟩ := A.new i a h1 h2
    refine ⟨p, by rw [hdp]; exact q1, by rw [hidx]; exact q2, ?_⟩
    rw [hann, annotationsOf_append, q3]
    by_cases e : id.span = i
    · subst e
      rw [hs] at h2
      injection h2 with h2
      rw [if_pos h2.symm, if_pos rfl]
    · have : a ≠ s := by
        rintro rfl
        by_cases ho : Collected L1 id.span
        · exact A.hidden _ _ ho hs (Or.inr ⟨i, h1, h2⟩)
        · obtain ⟨p', -, h3, -⟩ := A.new _ _ ho hs
          rw [q2] at h3
          injection h3 with _ h3 _
          exact e h3.symm
      rw [if_neg this, if_neg e, List.append_nil]
  · intro hz i hi
    rw [hidx]
    rw [← List.append_assoc, lastRoot_append, if_pos hcol] at hi
    refine A.rootL (fun e he => hz e ?_) i hi
    rw [← List.append_assoc]
    exact List.mem_append_left _ he

/-- A call for a new span. -/
theorem After.fresh (B : Base L1 V0 id0 fix r0) (A : After ms t L1 M V0 id0 fix r0 sm r) {id : SpanID} (hid : id.trace = t)
    (as : List Annotation)
    (hs : sm.get id.span = none) {ms' : MemStore} (hc : ms.collect id as = some ms') :
    ∃ r', After ms' t L1 (M ++ [(id, as)]) V0 id0 fix r0 (sm.set id.span ms.next) r' := by
  obtain ⟨ms1, e1, L', -⟩ := collect_loose A.loose id as
  rw [hc] at e1
  injection e1 with e1
  subst e1
  have hnc : ¬ Collected (L1 ++ M) id.span := fun h => (A.dom _).1 h hs
  have hn1 : ¬ Collected L1 id.span := fun h => hnc ((collected_append _ _ _).2 (Or.inl h))
  have hVlt : ∀ a, Vis V0 L1 sm a → a ≠ ms.next := fun a ha e => by
    have := (A.isIn a ha).1
    omega
  have hlkn : ∀ i, sm.get i ≠ some ms.next := by
    intro i hi
    have := (A.loose.span t sm i _ A.span hi).1
    omega
  have hrn := hVlt r A.p.root
  obtain ⟨c1, c2, c3, c4, c5⟩ := collect_new_eff as (by rw [hid]; exact A.span) hs (by rw [hid]; exact A.trace) hrn
    (by rw [hid]; exact (A.isIn r A.p.root).2) ms' hc _ rfl _ rfl
  have hold : ∀ a, a ≠ ms.next → heapUpd ms.heap ms.next ⟨id, as, []⟩ a = ms.heap a := fun a ha => by simp [heapUpd, ha]
  have hnew : heapUpd ms.heap ms.next ⟨id, as, []⟩ ms.next = ⟨id, as, []⟩ := by simp [heapUpd]
  generalize hh1 : heapUpd ms.heap ms.next ⟨id, as, []⟩ = h1 at *
  have hget : ∀ i, (sm.set id.span ms.next).get i = if i = id.span then some ms.next else sm.get i := by
    intro i
    rw [AMap.get_set]
    by_cases e : id.span = i
    · simp [e]
    · have : ¬ i = id.span := fun h => e h.symm
      simp [e, this]
  have hV : ∀ a, Vis V0 L1 (sm.set id.span ms.next) a ↔ Vis V0 L1 sm a ∨ a = ms.next := by
    intro a
    constructor
    · rintro (h | ⟨s, h1, h2⟩)
      · exact Or.inl (Or.inl h)
      · rw [hget] at h2
        split at h2
        · injection h2 with h2; exact Or.inr h2.symm
        · exact Or.inl (Or.inr ⟨s, h1, h2⟩)
    · rintro ((h | ⟨s, h1, h2⟩) | rfl)
      · exact Or.inl h
      · refine Or.inr ⟨s, h1, ?_⟩
        rw [hget, if_neg]
        · exact h2
        · rintro rfl; rw [hs] at h2; cases h2
      · exact Or.inr ⟨id.span, hn1, by rw [hget, if_pos rfl]⟩
  have P1 : PInv (Vis V0 L1 sm) (fun x => (h1 x).sub) fix sm.get (fun a => (h1 a).id.parent) (fun a => (h1 a).id.span) r :=
    A.p.congr (fun _ => Iff.rfl) (fun a ha => by simp only [subsOf, hold a (hVlt a ha)]) (fun _ => rfl)
      (fun a ha => by rw [hold a (hVlt a ha)]) (fun a ha => by rw [hold a (hVlt a ha)])
  have hnV : ¬ Vis V0 L1 sm ms.next := fun h => hVlt _ h rfl
  have hfix : fix ms.next = none := by
    cases h : fix ms.next with
    | none => rfl
    | some y => exact absurd (A.p.fixV _ _ h).1 hnV
  have hdp : ∀ x, declaredParent (L1 ++ (M ++ [(id, as)])) x =
      if x = id.span then some id.parent else declaredParent (L1 ++ M) x := by
    intro x
    rw [← List.append_assoc, declaredParent_append]
    by_cases e : x = id.span
    · subst e
      rw [(not_collected_iff _ _).1 hnc]
    · have : ¬ id.span = x := fun h => e h.symm
      rw [if_neg e]
      cases declaredParent (L1 ++ M) x <;> simp [this]
  have hcl : ∀ x, Collected (L1 ++ (M ++ [(id, as)])) x ↔ (sm.set id.span ms.next).get x ≠ none := by
    intro x
    rw [hget, collected_iff, hdp]
    by_cases e : x = id.span
    · simp [e]
    · rw [if_neg e, if_neg e, ← collected_iff]
      exact A.dom x
  have hin : ∀ a, Vis V0 L1 (sm.set id.span ms.next) a → In ms' t a := by
    intro a ha
    rw [hV] at ha
    refine ⟨?_, ?_⟩
    · rw [c1]
      rcases ha with ha | rfl
      · have := (A.isIn a ha).1; omega
      · omega
    · rw [c3]
      rcases ha with ha | rfl
      · rw [hold a (hVlt a ha)]; exact (A.isIn a ha).2
      · rw [hnew]; exact hid
  have hhid : ∀ s a, Collected L1 s → (sm.set id.span ms.next).get s = some a → ¬ Vis V0 L1 (sm.set id.span ms.next) a := by
    intro s a h1 h2
    rw [hget, if_neg (by rintro rfl; exact hn1 h1)] at h2
    rw [hV]
    rintro (h | rfl)
    · exact A.hidden s a h1 h2 h
    · exact hlkn _ h2
  have hno : ∀ a, V0 a → (ms'.heap a).id = id0 a ∧ (ms'.heap a).anns = (annotationsOf L1 (id0 a).span).map gobAnnotation := by
    intro a ha
    rw [c3, c4, hold a (hVlt a (Or.inl ha))]
    exact A.node0 a ha
  have hnw : ∀ s a, ¬ Collected L1 s → (sm.set id.span ms.next).get s = some a →
      ∃ p, declaredParent (L1 ++ (M ++ [(id, as)])) s = some p ∧ (ms'.heap a).id = ⟨t, s, p⟩ ∧
        (ms'.heap a).anns = annotationsOf (M ++ [(id, as)]) s := by
    intro s a h1 h2
    rw [hget] at h2
    rw [c3, c4, hdp, annotationsOf_append]
    split at h2
    · rename_i e
      injection h2 with h2
      subst h2 e
      rw [hnew]
      refine ⟨id.parent, by simp, by rw [← hid], ?_⟩
      rw [annotationsOf_not_collected M id.span (fun h => hnc ((collected_append _ _ _).2 (Or.inr h)))]
      simp
    · rename_i e
      have : ¬ id.span = s := fun h => e h.symm
      rw [if_neg e, hold a (hVlt a (Or.inr ⟨s, h1, h2⟩))]
      simp only [this, if_false, List.append_nil]
      exact A.new s a h1 h2
  have hpr : (ms.heap r).id.parent = (h1 r).id.parent := by rw [hold r hrn]
  have hz' : (∀ e ∈ L1 ++ (M ++ [(id, as)]), e.1.span ≠ 0) → ∀ e ∈ L1 ++ M, e.1.span ≠ 0 := by
    intro hz e he
    refine hz e ?_
    rw [← List.append_assoc]
    exact List.mem_append_left _ he
  have hlr : lastRoot (L1 ++ (M ++ [(id, as)])) = if id.parent = 0 then some id.span else lastRoot (L1 ++ M) := by
    rw [← List.append_assoc, lastRoot_append, if_neg hnc]
  by_cases hcase : id.parent = 0 ∨ (ms.heap r).id.parent = id.span
  · rw [if_pos hcase] at c5
    refine ⟨ms.next, L', by rw [← hid]; exact c2, by rw [← hid]; exact c5.1, hcl, hhid, hin, ?_, hno, hnw,
      Or.inr ⟨id.span, hn1, by rw [hget, if_pos rfl]⟩, ?_⟩
    · have P2 := P1.newRoot (s := ms.next) hnV (by simp only [hnew]; exact hs) hfix hlkn (by simp only [hnew])
        (lk' := fun i => if i = id.span then some ms.next else sm.get i) (fun i => by simp only [hnew]) rfl
      simp only [hnew] at P2
      refine P2.congr hV (fun a _ => ?_) hget (fun a _ => by simp only [c3]) (fun a _ => by simp only [c3])
      simp only [subsOf, c5.2]
    · intro hz i hi
      rw [c3, hnew]
      rw [hlr] at hi
      split at hi
      · injection hi
      · rename_i hp0
        have h3 := A.rootL (hz' hz) i hi
        have h4 := lastRoot_parent _ _ hi
        have h5 : (ms.heap r).id.parent = id.span := hcase.resolve_left hp0
        have h6 : (ms.heap r).id.parent = 0 := by
          rcases A.p.root with h0 | ⟨s, hs1, hs2⟩
          · have h7 := (A.node0 r h0).1
            have h8 := declaredParent_append_of (M := M) (B.decl r h0)
            rw [← h7, h3, h4] at h8
            injection h8 with h8
            exact h8.symm
          · obtain ⟨p, g1, g2, -⟩ := A.new s r hs1 hs2
            rw [g2] at h3 ⊢
            simp only at h3 ⊢
            rw [h3, h4] at g1
            injection g1 with g1
            exact g1.symm
        exfalso
        refine hz (id, as) (by simp) ?_
        exact h5.symm.trans h6
  · rw [if_neg hcase] at c5
    have hp0 : id.parent ≠ 0 := fun h => hcase (Or.inl h)
    refine ⟨r, L', by rw [← hid]; exact c2, by rw [← hid]; exact c5.1, hcl, hhid, hin, ?_, hno, hnw, ?_, ?_⟩
    · have P2 := P1.keepRoot (s := ms.next) hnV (by simp only [hnew]; exact hs) hfix hlkn (by simp only [hnew])
        (by simp only [hnew]; rw [← hpr]; exact fun h => hcase (Or.inr h))
        (lk' := fun i => if i = id.span then some ms.next else sm.get i) (fun i => by simp only [hnew]) rfl
      simp only [hnew] at P2
      refine P2.congr hV (fun a _ => ?_) hget (fun a _ => by simp only [c3]) (fun a _ => by simp only [c3])
      simp only [subsOf, c5.2]
    · rcases A.rootO with h | ⟨s, h1, h2⟩
      · exact Or.inl h
      · refine Or.inr ⟨s, h1, ?_⟩
        rw [hget, if_neg]
        · exact h2
        · rintro rfl; rw [hs] at h2; cases h2
    · intro hz i hi
      rw [hlr, if_neg hp0] at hi
      rw [c3, hold r hrn]
      exact A.rootL (hz' hz) i hi

theorem After.run (B : Base L1 V0 id0 fix r0) : ∀ (ops : List StoreOp) {ms : MemStore} {M : List Entry} {sm : AMap ID Addr}
    {r : Addr}, After ms t L1 M V0 id0 fix r0 sm r → ¬ Deletes t ops →
    ∃ ms' sm' r', ms.run ops = some ms' ∧ After ms' t L1 (ops.foldl (liveStep t) M) V0 id0 fix r0 sm' r' := by
  intro ops
  induction ops with
  | nil => intro ms M sm r A _; exact ⟨ms, sm, r, rfl, A⟩
  | cons op ops ih =>
    intro ms M sm r A hd
    have hd' : ¬ Deletes t ops := fun ⟨ids, h1, h2⟩ => hd ⟨ids, by simp [h1], h2⟩
    have key : ∃ ms1 sm1 r1, ms.step op = some ms1 ∧ After ms1 t L1 (liveStep t M op) V0 id0 fix r0 sm1 r1 := by
      cases op with
      | collect id as =>
        obtain ⟨ms1, e1, L1', O1⟩ := collect_loose A.loose id as
        by_cases e : id.trace = t
        · simp only [liveStep, if_pos e]
          cases hs : sm.get id.span with
          | some s => exact ⟨ms1, sm, r, e1, A.again B e as hs e1⟩
          | none =>
            obtain ⟨r', A'⟩ := A.fresh B e as hs e1
            exact ⟨ms1, _, r', e1, A'⟩
        · simp only [liveStep, if_neg e]
          have e' : t ≠ id.trace := fun h => e h.symm
          exact ⟨ms1, sm, r, e1, A.frame L1' O1.next (fun a ha => O1.heap a ha.1 (by rw [ha.2]; exact e'))
            (O1.span t e') (O1.trace t e')⟩
      | delete ids =>
        have e : t ∉ ids := fun h => hd ⟨ids, by simp, h⟩
        simp only [liveStep, if_neg e]
        obtain ⟨d1, d2, d3, d4⟩ := delete_get ids ms t
        rw [if_neg e] at d3 d4
        exact ⟨_, sm, r, rfl, A.frame (delete_loose A.loose ids) (by rw [d2]) (fun a _ => by rw [d1]) d4 d3⟩
    obtain ⟨ms1, sm1, r1, e1, A1⟩ := key
    obtain ⟨ms2, sm2, r2, e2, A2⟩ := ih A1 hd'
    exact ⟨ms2, sm2, r2, by simp [MemStore.run, e1, e2], by rw [List.foldl_cons]; exact A2⟩

end

end Appdash
