import Verif.Spec.Chunked
import Mathlib.Tactic.Tauto

/-! # Invariants of the chunked collector -/

namespace Appdash

theorem AMap.set_some {K V : Type} [DecidableEq K] {m : AMap K V} {k : K} {v : V} (h : m.get k = some v) :
    ∃ pre post, m = pre ++ (k, v) :: post ∧ (∀ p ∈ pre, p.1 ≠ k) ∧ ∀ w, m.set k w = pre ++ (k, w) :: post := by
  induction m with
  | nil => cases h
  | cons p m ih =>
    obtain ⟨a, b⟩ := p
    by_cases ha : a = k
    · subst ha
      simp only [AMap.get, if_true, Option.some.injEq] at h
      subst h
      exact ⟨[], m, rfl, by simp, fun w => by simp [AMap.set]⟩
    · simp only [AMap.get, if_neg ha] at h
      obtain ⟨pre, post, rfl, h1, h2⟩ := ih h
      refine ⟨(a, b) :: pre, post, rfl, ?_, fun w => by simp [AMap.set, ha, h2]⟩
      intro p hp
      rcases List.mem_cons.1 hp with rfl | hp
      · exact ha
      · exact h1 p hp

theorem AMap.set_none {K V : Type} [DecidableEq K] {m : AMap K V} {k : K} (h : m.get k = none) (w : V) :
    m.set k w = m ++ [(k, w)] := by
  induction m with
  | nil => rfl
  | cons p m ih =>
    obtain ⟨a, b⟩ := p
    by_cases ha : a = k
    · subst ha; simp [AMap.get] at h
    · simp only [AMap.get, if_neg ha] at h
      simp [AMap.set, ha, ih h]

end Appdash

namespace Appdash.Chunked

/-! ## `Collect` -/

/-- The three things `Collect` can do. -/
inductive CollectCase (cfg : Cfg) (s : State) (d : Delivery) (s' : State) (err : Option Err) : Prop
  | refused : s.stopped = true → err = some .stopped →
      s' = { s with history := s.history ++ [.collect d .refused (some .stopped)] } → CollectCase cfg s d s' err
  | dropped : s.stopped = false → cfg.maxQueueSize ≠ 0 → s.queueSize + collectionSize d.2 > cfg.maxQueueSize →
      err = some .queueDropped → s'.pending = [] → s'.queueSize = 0 →
      s'.history = s.history ++ [.collect d (.dropped s.pending) (some .queueDropped)] →
      s'.lastErr = s.lastErr → s'.flushes = s.flushes → s'.nextFlush = s.nextFlush →
      s'.stopped = false → s'.started = true →
      (s.started = true → s'.bg = s.bg ∧ s'.stopChan = s.stopChan) →
      (s.started = false → s'.bg = .waiting ∧ s'.stopChan = .opened) → CollectCase cfg s d s' err
  | queued : s.stopped = false → (cfg.maxQueueSize ≠ 0 → s.queueSize + collectionSize d.2 ≤ cfg.maxQueueSize) →
      err = s.lastErr → s'.pending = enqueue s.pending d → s'.queueSize = s.queueSize + collectionSize d.2 →
      s'.history = s.history ++ [.collect d .queued s.lastErr] →
      s'.lastErr = none → s'.flushes = s.flushes → s'.nextFlush = s.nextFlush →
      s'.stopped = false → s'.started = true →
      (s.started = true → s'.bg = s.bg ∧ s'.stopChan = s.stopChan) →
      (s.started = false → s'.bg = .waiting ∧ s'.stopChan = .opened) → CollectCase cfg s d s' err

theorem collect_cases (cfg : Cfg) (s : State) (d : Delivery) :
    CollectCase cfg s d (s.collect cfg d).1 (s.collect cfg d).2 := by
  unfold State.collect
  by_cases hst : s.stopped = true
  · simp only [hst, if_true]
    exact .refused hst rfl (by rw [hst])
  · have hst : s.stopped = false := by simpa using hst
    simp only [hst, Bool.false_eq_true, if_false]
    have e : ∀ {α : Type} (f : State → α), f s = f s.start → f (if s.started = true then s else s.start) = f s := by
      intro α f h; split <;> simp [h]
    have e1 := e State.queueSize rfl
    have e2 := e State.pending rfl
    have e3 := e State.lastErr rfl
    have e4 := e State.history rfl
    have e5 := e State.flushes rfl
    have e6 := e State.nextFlush rfl
    have e7 := e State.stopped rfl
    have e8 : (if s.started = true then s else s.start).started = true := by
      split
      · assumption
      · rfl
    have e9 : s.started = true → (if s.started = true then s else s.start).bg = s.bg ∧
        (if s.started = true then s else s.start).stopChan = s.stopChan := by
      intro h; simp [h]
    have e10 : s.started = false → (if s.started = true then s else s.start).bg = .waiting ∧
        (if s.started = true then s else s.start).stopChan = .opened := by
      intro h; simp [h, State.start]
    generalize (if s.started = true then s else s.start) = s1 at *
    by_cases hx : cfg.maxQueueSize ≠ 0 ∧ s1.queueSize + collectionSize d.2 > cfg.maxQueueSize
    · rw [if_pos hx]
      exact .dropped hst hx.1 (by rw [← e1]; exact hx.2) rfl rfl rfl (by simp [e2, e4]) e3 e5 e6 (by rw [← hst, ← e7]) e8 e9 e10
    · rw [if_neg hx]
      have hx' : cfg.maxQueueSize ≠ 0 → s.queueSize + collectionSize d.2 ≤ cfg.maxQueueSize := by
        intro h0
        rw [← e1]
        have : ¬ s1.queueSize + collectionSize d.2 > cfg.maxQueueSize := fun h => hx ⟨h0, h⟩
        simpa using this
      cases hl : s1.lastErr with
      | none =>
        exact .queued hst hx' (by simp [← e3, hl]) (by simp [e2]) (by simp [e1])
          (by simp [e4, ← e3, hl]) (by simp [hl]) e5 e6 (by rw [← hst, ← e7]) e8 e9 e10
      | some e =>
        exact .queued hst hx' (by simp [← e3, hl]) (by simp [e2]) (by simp [e1])
          (by simp [e4, ← e3, hl]) rfl e5 e6 (by rw [← hst, ← e7]) e8 e9 e10

/-! ## Conservation -/

theorem count_enqueue (m : AMap SpanID (List Annotation)) (d : Delivery) (x : Item) [DecidableEq Item] :
    ((enqueue m d).flatMap items).count x = (m.flatMap items).count x + (items d).count x := by
  unfold enqueue
  cases h : m.get d.1 with
  | none =>
    simp only [AMap.set_none h]
    simp [List.count_append]
  | some p =>
    obtain ⟨pre, post, hm, -, hs⟩ := AMap.set_some h
    simp only
    split
    · rw [hs, hm]
      simp only [List.flatMap_append, List.flatMap_cons, List.count_append]
      have : items (d.1, p ++ d.2) = items (d.1, p) ++ items d := by simp [items]
      rw [this, List.count_append]
      omega
    · rename_i h0
      have : d.2 = [] := by
        cases hd : d.2 with
        | nil => rfl
        | cons a l => rw [hd] at h0; simp at h0
      simp [items, this]

/-- Every accepted annotation is in exactly one place. -/
theorem conserved {cfg : Cfg} {s : State} (h : Reachable cfg s) (x : Item) :
    (acceptedItems s.history).count x = (queuedItems s).count x + (heldItems s).count x +
      (deliveredItems s.history).count x + (droppedItems s.history).count x := by
  induction h with
  | init => rfl
  | @step s s' _ hs ih =>
    cases hs with
    | collect d =>
      cases collect_cases cfg s d with
      | refused _ _ h3 =>
        rw [h3]
        simp only [acceptedItems, deliveredItems, droppedItems, queuedItems, heldItems, List.flatMap_append,
          List.flatMap_cons, List.flatMap_nil, List.append_nil] at ih ⊢
        exact ih
      | dropped h1 h2 h3 h4 h5 h6 h7 h8 h9 =>
        simp only [acceptedItems, deliveredItems, droppedItems, queuedItems, heldItems, h5, h7, h9, List.flatMap_append,
          List.flatMap_cons, List.flatMap_nil, List.append_nil, List.count_append, List.count_nil] at ih ⊢
        omega
      | queued h1 h2 h3 h4 h5 h6 h7 h8 =>
        simp only [acceptedItems, deliveredItems, droppedItems, queuedItems, heldItems, h4, h6, h8, List.flatMap_append,
          List.flatMap_cons, List.flatMap_nil, List.append_nil, List.count_append, count_enqueue] at ih ⊢
        omega
    | flush =>
      simp only [State.flushBegin, acceptedItems, deliveredItems, droppedItems, queuedItems, heldItems,
        List.flatMap_append, List.flatMap_cons, List.flatMap_nil, List.append_nil, List.count_append,
        List.count_nil] at ih ⊢
      omega
    | tick _ =>
      simp only [State.flushBegin, acceptedItems, deliveredItems, droppedItems, queuedItems, heldItems,
        List.flatMap_append, List.flatMap_cons, List.flatMap_nil, List.append_nil, List.count_append,
        List.count_nil] at ih ⊢
      omega
    | send f pre post d bef aft err hf hr =>
      simp only [acceptedItems, deliveredItems, droppedItems, queuedItems, heldItems, hf, hr,
        List.flatMap_append, List.flatMap_cons, List.flatMap_nil, List.append_nil, List.count_append,
        List.count_nil] at ih ⊢
      omega
    | sendTimeout f pre post d bef aft err _ hf hr =>
      simp only [acceptedItems, deliveredItems, droppedItems, queuedItems, heldItems, hf, hr,
        List.flatMap_append, List.flatMap_cons, List.flatMap_nil, List.append_nil, List.count_append,
        List.count_nil] at ih ⊢
      omega
    | flushEnd f pre post hf hr _ =>
      simp only [acceptedItems, deliveredItems, droppedItems, queuedItems, heldItems, hf, hr,
        List.flatMap_append, List.flatMap_cons, List.flatMap_nil, List.append_nil, List.count_append,
        List.count_nil] at ih ⊢
      omega
    | bgFlushEnd f pre post hf hr _ =>
      simp only [acceptedItems, deliveredItems, droppedItems, queuedItems, heldItems, hf, hr,
        List.flatMap_append, List.flatMap_cons, List.flatMap_nil, List.append_nil, List.count_append,
        List.count_nil] at ih ⊢
      omega
    | store e _ =>
      simp only [acceptedItems, deliveredItems, droppedItems, queuedItems, heldItems,
        List.flatMap_append, List.flatMap_cons, List.flatMap_nil, List.append_nil] at ih ⊢
      exact ih
    | exit _ _ => exact ih
    | stop =>
      simp only [State.stop]
      split <;>
      · simp only [acceptedItems, deliveredItems, droppedItems, queuedItems, heldItems,
          List.flatMap_append, List.flatMap_cons, List.flatMap_nil, List.append_nil] at ih ⊢
        exact ih

theorem ids_enqueue (m : AMap SpanID (List Annotation)) (d : Delivery) (id : SpanID) :
    id ∈ (enqueue m d).map Prod.fst ↔ id ∈ m.map Prod.fst ∨ id = d.1 := by
  unfold enqueue
  cases h : m.get d.1 with
  | none => simp only [AMap.set_none h]; simp
  | some p =>
    obtain ⟨pre, post, hm, -, hs⟩ := AMap.set_some h
    simp only
    have hmem : id = d.1 → id ∈ m.map Prod.fst := by rintro rfl; rw [hm]; simp
    split
    · rw [hs, hm]; simp; tauto
    · constructor
      · exact Or.inl
      · rintro (h | h)
        · exact h
        · exact hmem h

/-- A span is in one of the places if and only if a call for it was accepted. -/
theorem ids_conserved {cfg : Cfg} {s : State} (h : Reachable cfg s) (id : SpanID) :
    id ∈ (acceptedCalls s.history).map Prod.fst ↔ id ∈ s.pending.map Prod.fst ∨
      (∃ f ∈ s.flushes, id ∈ f.remaining.map Prod.fst) ∨ id ∈ (deliveredCalls s.history).map Prod.fst ∨
      id ∈ (droppedCalls s.history).map Prod.fst := by
  induction h with
  | init => simp [acceptedCalls, deliveredCalls, droppedCalls]
  | @step s s' _ hs ih =>
    have A : ∀ h e, acceptedCalls (h ++ e) = acceptedCalls h ++ acceptedCalls e := fun h e => List.filterMap_append
    have D : ∀ h e, deliveredCalls (h ++ e) = deliveredCalls h ++ deliveredCalls e := fun h e => List.filterMap_append
    have R : ∀ h e, droppedCalls (h ++ e) = droppedCalls h ++ droppedCalls e := fun h e => List.flatMap_append
    cases hs with
    | collect d =>
      cases collect_cases cfg s d with
      | refused _ _ h3 =>
        rw [h3]
        simp only [A, D, R]
        simpa [acceptedCalls, deliveredCalls, droppedCalls] using ih
      | dropped h1 h2 h3 h4 h5 h6 h7 h8 h9 =>
        simp only [A, D, R, h5, h7, h9, List.map_append, List.mem_append]
        simp only [acceptedCalls, deliveredCalls, droppedCalls, List.filterMap_cons, List.filterMap_nil,
          List.flatMap_cons, List.flatMap_nil, List.append_nil, List.map_nil, List.not_mem_nil] at ih ⊢
        (clear A D R; grind)
      | queued h1 h2 h3 h4 h5 h6 h7 h8 =>
        simp only [A, D, R, h4, h6, h8, List.map_append, List.mem_append, ids_enqueue]
        simp only [acceptedCalls, deliveredCalls, droppedCalls, List.filterMap_cons, List.filterMap_nil,
          List.flatMap_cons, List.flatMap_nil, List.append_nil, List.map_nil, List.map_cons, List.mem_singleton,
          List.not_mem_nil] at ih ⊢
        (clear A D R; grind)
    | flush =>
      simp only [State.flushBegin, A, D, R, List.map_append, List.mem_append]
      simp only [acceptedCalls, deliveredCalls, droppedCalls, List.filterMap_cons, List.filterMap_nil,
        List.flatMap_cons, List.flatMap_nil, List.append_nil, List.map_nil, List.not_mem_nil, List.mem_append,
        List.mem_singleton, or_and_right, exists_or, exists_eq_left] at ih ⊢
      (clear A D R; grind)
    | tick _ =>
      simp only [State.flushBegin, A, D, R, List.map_append, List.mem_append]
      simp only [acceptedCalls, deliveredCalls, droppedCalls, List.filterMap_cons, List.filterMap_nil,
        List.flatMap_cons, List.flatMap_nil, List.append_nil, List.map_nil, List.not_mem_nil, List.mem_append,
        List.mem_singleton, or_and_right, exists_or, exists_eq_left] at ih ⊢
      (clear A D R; grind)
    | send f pre post d bef aft err hf hr =>
      simp only [A, D, R, hf, hr, List.map_append, List.map_cons, List.mem_append, List.mem_cons, or_and_right, exists_or,
        exists_eq_left] at ih ⊢
      simp only [acceptedCalls, deliveredCalls, droppedCalls, List.filterMap_cons, List.filterMap_nil,
        List.flatMap_cons, List.flatMap_nil, List.append_nil, List.map_nil, List.map_cons, List.not_mem_nil,
        List.mem_singleton] at ih ⊢
      (clear A D R; grind)
    | sendTimeout f pre post d bef aft err _ hf hr =>
      simp only [A, D, R, hf, hr, List.map_append, List.map_cons, List.mem_append, List.mem_cons, or_and_right, exists_or,
        exists_eq_left] at ih ⊢
      simp only [acceptedCalls, deliveredCalls, droppedCalls, List.filterMap_cons, List.filterMap_nil,
        List.flatMap_cons, List.flatMap_nil, List.append_nil, List.map_nil, List.map_cons, List.not_mem_nil,
        List.mem_singleton, List.map_append, List.mem_append] at ih ⊢
      (clear A D R; grind)
    | flushEnd f pre post hf hr _ =>
      simp only [A, D, R, hf, hr, List.map_append, List.map_cons, List.mem_append, List.mem_cons, or_and_right, exists_or,
        exists_eq_left] at ih ⊢
      simp only [acceptedCalls, deliveredCalls, droppedCalls, List.filterMap_cons, List.filterMap_nil,
        List.flatMap_cons, List.flatMap_nil, List.append_nil, List.map_nil, List.map_cons, List.not_mem_nil,
        List.mem_singleton] at ih ⊢
      (clear A D R; grind)
    | bgFlushEnd f pre post hf hr _ =>
      simp only [A, D, R, hf, hr, List.map_append, List.map_cons, List.mem_append, List.mem_cons, or_and_right, exists_or,
        exists_eq_left] at ih ⊢
      simp only [acceptedCalls, deliveredCalls, droppedCalls, List.filterMap_cons, List.filterMap_nil,
        List.flatMap_cons, List.flatMap_nil, List.append_nil, List.map_nil, List.map_cons, List.not_mem_nil,
        List.mem_singleton] at ih ⊢
      (clear A D R; grind)
    | store e _ =>
      simp only [A, D, R]
      simpa [acceptedCalls, deliveredCalls, droppedCalls] using ih
    | exit _ _ => exact ih
    | stop =>
      simp only [State.stop]
      split <;>
      · simp only [A, D, R]
        simpa [acceptedCalls, deliveredCalls, droppedCalls] using ih

/-! ## The size of the queue -/

theorem collectionSize_eq (as : List Annotation)
    (h : 24 + (as.map fun a => a.key.length + (a.value.getD []).length).sum < 2 ^ 64) :
    (collectionSize as).toNat = 24 + (as.map fun a => a.key.length + (a.value.getD []).length).sum := by
  have gen : ∀ (n : UInt64), n.toNat + (as.map fun a => a.key.length + (a.value.getD []).length).sum < 2 ^ 64 →
      (as.foldl (fun n a => n + UInt64.ofNat a.key.length + UInt64.ofNat (a.value.getD []).length) n).toNat =
        n.toNat + (as.map fun a => a.key.length + (a.value.getD []).length).sum := by
    clear h
    induction as with
    | nil => intro n _; simp
    | cons a as ih =>
      intro n hn
      simp only [List.map_cons, List.sum_cons] at hn
      have e : (n + UInt64.ofNat a.key.length + UInt64.ofNat (a.value.getD []).length).toNat =
          n.toNat + a.key.length + (a.value.getD []).length := by
        simp only [UInt64.toNat_add, UInt64.toNat_ofNat']
        omega
      rw [List.foldl_cons, ih _ (by omega), e]
      simp only [List.map_cons, List.sum_cons]
      omega
  have := gen (3 * 8) (by simpa using h)
  simpa [collectionSize] using this

theorem queuedBytes_enqueue (m : AMap SpanID (List Annotation)) (d : Delivery) :
    ((enqueue m d).map sizeOf).sum ≤ (m.map sizeOf).sum + sizeOf d := by
  unfold enqueue
  cases h : m.get d.1 with
  | none => simp [AMap.set_none h]
  | some p =>
    obtain ⟨pre, post, hm, -, hs⟩ := AMap.set_some h
    simp only
    split
    · rw [hs, hm]
      simp only [List.map_append, List.map_cons, List.sum_append, List.sum_cons, sizeOf]
      omega
    · omega

/-- The queue never holds more than `MaxQueueSize` bytes, and its counter is never below what it holds. -/
theorem size_bound {cfg : Cfg} (h0 : cfg.maxQueueSize ≠ 0) {s : State} (h : Reachable cfg s)
    (hd : ∀ d fate err, .collect d fate err ∈ s.history → sizeOf d + cfg.maxQueueSize.toNat < 2 ^ 64) :
    queuedBytes s ≤ s.queueSize.toNat ∧ s.queueSize.toNat ≤ cfg.maxQueueSize.toNat := by
  induction h with
  | init => simp [queuedBytes]
  | @step s s' _ hs ih =>
    have keep : s'.pending = s.pending → s'.queueSize = s.queueSize → (∀ e ∈ s.history, e ∈ s'.history) →
        queuedBytes s' ≤ s'.queueSize.toNat ∧ s'.queueSize.toNat ≤ cfg.maxQueueSize.toNat := by
      intro e1 e2 e3
      have := ih (fun d f e hm => hd d f e (e3 _ hm))
      simp only [queuedBytes, e1, e2] at this ⊢
      exact this
    have zero : s'.pending = [] → s'.queueSize = 0 →
        queuedBytes s' ≤ s'.queueSize.toNat ∧ s'.queueSize.toNat ≤ cfg.maxQueueSize.toNat := by
      intro e1 e2
      simp [queuedBytes, e1, e2]
    cases hs with
    | collect d =>
      cases collect_cases cfg s d with
      | refused _ _ h3 => exact keep (by rw [h3]) (by rw [h3]) (by rw [h3]; intro e he; simp [he])
      | dropped h1 h2 h3 h4 h5 h6 => exact zero h5 h6
      | queued h1 h2 h3 h4 h5 h6 =>
        obtain ⟨i1, i2⟩ := ih (fun d f e hm => hd d f e (by rw [h6]; simp [hm]))
        have hsz := hd d .queued s.lastErr (by rw [h6]; simp)
        have hcs : (collectionSize d.2).toNat = sizeOf d := collectionSize_eq d.2 (by simp only [sizeOf] at hsz; omega)
        have hle := UInt64.le_iff_toNat_le.1 (h2 h0)
        have hq := queuedBytes_enqueue s.pending d
        have hadd : (s.queueSize + collectionSize d.2).toNat = s.queueSize.toNat + sizeOf d := by
          rw [UInt64.toNat_add, hcs]
          omega
        rw [h5]
        refine ⟨?_, hle⟩
        rw [hadd]
        have e1 : queuedBytes (s.collect cfg d).1 = ((enqueue s.pending d).map sizeOf).sum := by
          simp only [queuedBytes, h4]; rfl
        have e2 : queuedBytes s = (s.pending.map sizeOf).sum := rfl
        omega
    | flush => exact zero rfl rfl
    | tick _ => exact zero rfl rfl
    | send => exact keep rfl rfl (by intro e he; simp [he])
    | sendTimeout => exact keep rfl rfl (by intro e he; simp [he])
    | flushEnd => exact keep rfl rfl (by intro e he; simp [he])
    | bgFlushEnd => exact keep rfl rfl (by intro e he; simp [he])
    | store => exact keep rfl rfl (by intro e he; simp [he])
    | exit => exact keep rfl rfl (by intro e he; exact he)
    | stop =>
      refine keep ?_ ?_ ?_ <;> simp only [State.stop] <;> split <;> simp +contextual

/-! ## Errors -/

theorem unreported_snoc (h : List Event) (e : Event) : unreported (h ++ [e]) = (match e with
    | .stored e => some e
    | .collect _ .queued _ => none
    | _ => unreported h) := by
  unfold unreported
  rw [List.foldl_append]
  rfl

/-- `lastErr` is the unreported error. -/
theorem lastErr_eq {cfg : Cfg} {s : State} (h : Reachable cfg s) : s.lastErr = unreported s.history := by
  induction h with
  | init => rfl
  | @step s s' _ hs ih =>
    cases hs with
    | collect d =>
      cases collect_cases cfg s d with
      | refused _ _ h3 => rw [h3, unreported_snoc]; exact ih
      | dropped h1 h2 h3 h4 h5 h6 h7 h8 => rw [h7, h8, unreported_snoc]; exact ih
      | queued h1 h2 h3 h4 h5 h6 h7 => rw [h6, h7, unreported_snoc]
    | flush => simp only [State.flushBegin, unreported_snoc]; exact ih
    | tick _ => simp only [State.flushBegin, unreported_snoc]; exact ih
    | send => simp only [unreported_snoc]; exact ih
    | sendTimeout f pre post d bef aft err =>
      have : s.history ++ [.send f.id d err, .timeout f.id (bef ++ aft)] =
        (s.history ++ [.send f.id d err]) ++ [.timeout f.id (bef ++ aft)] := by simp
      simp only [this, unreported_snoc]; exact ih
    | flushEnd => simp only [unreported_snoc]; exact ih
    | bgFlushEnd => simp only [unreported_snoc]; exact ih
    | store => simp only [unreported_snoc]
    | exit => exact ih
    | stop => simp only [State.stop]; split <;> simp only [unreported_snoc] <;> exact ih

end Appdash.Chunked
