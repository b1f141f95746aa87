import Verif.Spec.StoreConc
import Verif.Proofs.Mutex
import Verif.Proofs.StoreTraces

/-! # The statement-by-statement store methods do what the sequential model says -/

namespace Appdash

theorem AMap.set_set {K V : Type} [DecidableEq K] (m : AMap K V) (k : K) (v w : V) :
    (m.set k v).set k w = m.set k w := by
  induction m with
  | nil => simp [AMap.set]
  | cons p m ih =>
    obtain ⟨a, b⟩ := p
    by_cases h : a = k <;> simp [AMap.set, h, ih]

/-- The effect and reply of one call performed alone. -/
def storeExec (c : StoreCall) (ms ms' : MemStore) (r : StoreReply) : Prop :=
  match c with
  | .collect id as => ms.collect id as = some ms' ∧ r = .done
  | .delete ids => ms.delete ids = ms' ∧ r = .done
  | .trace t => ms' = ms ∧ r = .ptr (ms.tracePtr t)
  | .traces opts => ms' = ms ∧ ∃ ps, r = .ptrs ps ∧ ps.Perm (ms.tracesPtr opts)

/-- Inversion with the concrete step relation. -/
theorem store_inv {l : StorePC} {s s' : MemStore} {r : StoreReply} (h : Mutex.Runs storeMachine l s s' r) :
    StoreStep l s s' (.inr r) ∨ ∃ l' s1, StoreStep l s s1 (.inl l') ∧ Mutex.Runs storeMachine l' s1 s' r := h.inv

theorem runs_collectReattach {s root : Addr} {ms ms' : MemStore} {r : StoreReply}
    (h : Mutex.Runs storeMachine (.collectReattach s root) ms ms' r) :
    (if s ≠ root then ms.reattachChildren s root else some ms) = some ms' ∧ r = .done := by
  rcases store_inv h with h | ⟨l', s1, h, h2⟩
  · cases h with
    | reattachYes _ _ _ _ hne hr => exact ⟨by rw [if_pos hne]; exact hr, rfl⟩
    | reattachNo _ _ _ he => exact ⟨by rw [if_neg (fun hh => hh he)], rfl⟩
  · cases h

theorem runs_collectInsert {id : SpanID} {s root : Addr} {ms ms' : MemStore} {r : StoreReply}
    (h : Mutex.Runs storeMachine (.collectInsert id s root) ms ms' r) :
    (let ms := if id.isRoot = false ∧ s ≠ root then ms.insert root s else ms
     if s ≠ root then ms.reattachChildren s root else some ms) = some ms' ∧ r = .done := by
  rcases store_inv h with h | ⟨l', s1, h, h2⟩
  · cases h
  · cases h with
    | insertYes _ _ _ _ hc => simp only [if_pos hc]; exact runs_collectReattach h2
    | insertNo _ _ _ _ hc => simp only [if_neg hc]; exact runs_collectReattach h2

theorem runs_collectFix {id : SpanID} {s root : Addr} {ms ms' : MemStore} {r : StoreReply}
    (h : Mutex.Runs storeMachine (.collectFix id s root) ms ms' r) :
    (match ms.fixRoot id s root with
      | none => none
      | some (ms, root) =>
        let ms := if id.isRoot = false ∧ s ≠ root then ms.insert root s else ms
        if s ≠ root then ms.reattachChildren s root else some ms) = some ms' ∧ r = .done := by
  rcases store_inv h with h | ⟨l', s1, h, h2⟩
  · cases h
  · cases h with
    | fixNo _ _ _ _ hc =>
      simp only [MemStore.fixRoot, if_neg hc]
      exact runs_collectInsert h2
    | fixYes _ _ _ _ hc =>
      rcases store_inv h2 with h | ⟨l', s1, h, h3⟩
      · cases h
      · cases h with
        | fixReattach _ ms1 _ _ _ hr =>
          rcases store_inv h3 with h | ⟨l', s1, h, h4⟩
          · cases h
          · cases h with
            | fixInsert =>
              rcases store_inv h4 with h | ⟨l', s1, h, h5⟩
              · cases h
              · cases h with
                | fixMove =>
                  simp only [MemStore.fixRoot, if_pos hc, hr]
                  exact runs_collectInsert h5

theorem runs_collectRoot {id : SpanID} {s : Addr} {ms ms' : MemStore} {r : StoreReply}
    (h : Mutex.Runs storeMachine (.collectRoot id s) ms ms' r) :
    ms.attach id s = some ms' ∧ r = .done := by
  rcases store_inv h with h | ⟨l', s1, h, h2⟩
  · cases h
  · cases h with
    | rootPresent _ _ _ _ hg =>
      have := runs_collectFix h2
      simp only [MemStore.attach, hg]
      exact this
    | rootNew _ _ _ hg =>
      have := runs_collectFix h2
      simp only [MemStore.attach, hg]
      exact this

theorem runs_collectSpan {id : SpanID} {as : List Annotation} {ms ms' : MemStore} {r : StoreReply}
    (h : Mutex.Runs storeMachine (.collectSpan id as) ms ms' r) :
    ms.collect id as = some ms' ∧ r = .done := by
  rcases store_inv h with h | ⟨l', s1, h, h2⟩
  · cases h with
    | spanPresent _ _ _ m s hm hs =>
      simp [MemStore.collect, hm, hs]
  · cases h with
    | spanNew _ _ _ m hm hs =>
      have := runs_collectRoot h2
      simp only [MemStore.collect, hm, Option.getD_some, hs]
      exact this

theorem runs_collect {id : SpanID} {as : List Annotation} {ms ms' : MemStore} {r : StoreReply}
    (h : Mutex.Runs storeMachine (.collectInit id as) ms ms' r) :
    ms.collect id as = some ms' ∧ r = .done := by
  rcases store_inv h with h | ⟨l', s1, h, h2⟩
  · cases h
  · cases h with
    | initPresent => exact runs_collectSpan h2
    | initMissing _ _ _ hm =>
      have := runs_collectSpan h2
      simp only [MemStore.collect, AMap.get_set_self, Option.getD_some, AMap.get_nil, AMap.set_set] at this
      simp only [MemStore.collect, hm, Option.getD_none, AMap.get_nil]
      exact this

theorem runs_delete {ids : List ID} {ms ms' : MemStore} {r : StoreReply}
    (h : Mutex.Runs storeMachine (.deleteLoop ids) ms ms' r) : ms.delete ids = ms' ∧ r = .done := by
  induction ids generalizing ms with
  | nil =>
    rcases store_inv h with h | ⟨l', s1, h, h2⟩
    · cases h; exact ⟨rfl, rfl⟩
    · cases h
  | cons t ids ih =>
    rcases store_inv h with h | ⟨l', s1, h, h2⟩
    · cases h
    · cases h
      rcases store_inv h2 with h | ⟨l', s1, h, h3⟩
      · cases h
      · cases h
        exact ih h3

theorem runs_tracesLoop {todo : List ID} {acc : List Addr} {ms ms' : MemStore} {r : StoreReply}
    (h : Mutex.Runs storeMachine (.tracesLoop todo acc) ms ms' r) :
    ms' = ms ∧ r = .ptrs (acc ++ todo.filterMap ms.trace.get) ∧ ∀ t ∈ todo, (ms.trace.get t).isSome := by
  induction todo generalizing acc with
  | nil =>
    rcases store_inv h with h | ⟨l', s1, h, h2⟩
    · cases h; simp
    · cases h
  | cons t todo ih =>
    rcases store_inv h with h | ⟨l', s1, h, h2⟩
    · cases h
    · cases h with
      | tracesNext _ _ _ _ p hp =>
        obtain ⟨h1, h2, h3⟩ := ih h2
        refine ⟨h1, ?_, ?_⟩
        · rw [h2]; simp [hp]
        · intro t' ht'
          rcases List.mem_cons.1 ht' with rfl | ht'
          · simp [hp]
          · exact h3 _ ht'

theorem filterMap_get_keys {K V : Type} [DecidableEq K] (m : AMap K V) (hn : (AMap.keys m).Nodup) :
    (AMap.keys m).filterMap m.get = m.map Prod.snd := by
  have : ∀ l : AMap K V, (∀ p ∈ l, m.get p.1 = some p.2) → (l.map Prod.fst).filterMap m.get = l.map Prod.snd := by
    intro l
    induction l with
    | nil => simp
    | cons p l ih =>
      intro h
      rw [List.map_cons, List.filterMap_cons, h p (by simp), List.map_cons]
      simp only
      rw [ih (fun q hq => h q (by simp [hq]))]
  exact this m (fun p hp => AMap.get_of_mem hn hp)

/-- Alone, each body has the effect and reply of the sequential model (given a proper map). -/
theorem store_runs {c : StoreCall} {ms ms' : MemStore} {r : StoreReply} (hn : (AMap.keys ms.trace).Nodup)
    (h : Mutex.Runs storeMachine c.start ms ms' r) : storeExec c ms ms' r := by
  cases c with
  | collect id as => exact runs_collect h
  | delete ids => exact runs_delete h
  | trace t =>
    rcases store_inv h with h | ⟨l', s1, h, h2⟩
    · cases h; exact ⟨rfl, rfl⟩
    · cases h
  | traces opts =>
    rcases store_inv h with h | ⟨l', s1, h, h2⟩
    · cases h
    · cases h with
      | tracesInit _ _ todo hp =>
        obtain ⟨rfl, rfl, -⟩ := runs_tracesLoop h2
        refine ⟨rfl, _, rfl, ?_⟩
        simp only [List.nil_append]
        refine (hp.filterMap _).trans ?_
        rw [filterMap_get_keys _ hn]
        exact List.Perm.refl _

theorem opsOf_append (l l' : List (Nat × StoreCall × StoreReply)) : opsOf (l ++ l') = opsOf l ++ opsOf l' := by
  induction l with
  | nil => rfl
  | cons e l ih => obtain ⟨i, c, r⟩ := e; cases c <;> simp [opsOf, ih]

theorem store_sequential {log : List (Nat × StoreCall × StoreReply)} {s ms : MemStore}
    (h : Mutex.Sequential (fun c ms ms' r => (AMap.keys ms.trace).Nodup → storeExec c ms ms' r) s log ms)
    (hs : s = MemStore.new) :
    MemStore.new.run (opsOf log) = some ms ∧ ∀ k i c r, log[k]? = some (i, c, r) →
      ∃ ms0, MemStore.new.run (opsOf (log.take k)) = some ms0 ∧ replyFrom ms0 c r := by
  induction h with
  | nil => subst hs; exact ⟨rfl, by simp⟩
  | @snoc ms0 ms1 log i c r _ hx ih =>
    obtain ⟨h1, h2⟩ := ih
    have hk : (AMap.keys ms0.trace).Nodup := run_keys h1 (by simp [MemStore.new, AMap.keys])
    replace hx := hx hk
    refine ⟨?_, ?_⟩
    · rw [opsOf_append]
      cases c with
      | collect id as => rw [run_append, h1]; simp [opsOf, MemStore.run, MemStore.step, hx.1]
      | delete ids => rw [run_append, h1]; simp [opsOf, MemStore.run, MemStore.step, hx.1]
      | trace t => simp [opsOf, h1, hx.1]
      | traces o => simp [opsOf, h1, hx.1]
    · intro k i' c' r' hk'
      rw [List.getElem?_append] at hk'
      split at hk'
      · rename_i hlt
        rw [List.take_append_of_le_length (by omega)]
        exact h2 k i' c' r' hk'
      · rename_i hge
        have hk0 : k = log.length := by
          rcases Nat.lt_or_ge log.length k with hh | hh
          · rw [List.getElem?_eq_none (by simp; omega)] at hk'; cases hk'
          · omega
        subst hk0
        simp only [Nat.sub_self, List.getElem?_cons_zero, Option.some.injEq, Prod.mk.injEq] at hk'
        obtain ⟨rfl, rfl, rfl⟩ := hk'
        refine ⟨ms0, by simpa using h1, ?_⟩
        cases c with
        | collect id as => exact hx.2
        | delete ids => exact hx.2
        | trace t => exact hx.2
        | traces o => exact hx.2

/-! ## Bodies always run to completion -/

/-- The body can be run to its end from here. -/
def Completable (l : StorePC) (ms : MemStore) : Prop := ∃ ms' r, Mutex.Runs storeMachine l ms ms' r

theorem Completable.last {l : StorePC} {ms ms' : MemStore} {r : StoreReply} (h : StoreStep l ms ms' (.inr r)) :
    Completable l ms := ⟨ms', r, .done h⟩

theorem Completable.more {l l' : StorePC} {ms ms' : MemStore} (h : StoreStep l ms ms' (.inl l'))
    (h2 : Completable l' ms') : Completable l ms := by
  obtain ⟨a, r, h2⟩ := h2
  exact ⟨a, r, .more h h2⟩

theorem completable_tracesLoop (ms : MemStore) (todo : List ID) (acc : List Addr)
    (h : ∀ t ∈ todo, (ms.trace.get t).isSome) : Completable (.tracesLoop todo acc) ms := by
  induction todo generalizing acc with
  | nil => exact .last (.tracesDone _ _)
  | cons t todo ih =>
    obtain ⟨p, hp⟩ := Option.isSome_iff_exists.1 (h t (by simp))
    exact .more (.tracesNext _ _ _ _ p hp) (ih _ (fun t' ht' => h t' (by simp [ht'])))

theorem completable_deleteLoop (ms : MemStore) (ids : List ID) : Completable (.deleteLoop ids) ms := by
  induction ids generalizing ms with
  | nil => exact .last (.deleteDone _)
  | cons t ids ih => exact .more (.deleteTrace _ _ _) (.more (.deleteSpans _ _ _) (ih _))

theorem completable_reattach (ms : MemStore) (s root : Addr) : Completable (.collectReattach s root) ms := by
  by_cases h : s = root
  · exact .last (.reattachNo _ _ _ h)
  · exact .last (.reattachYes _ _ _ _ h (by simp [MemStore.reattachChildren, h]; rfl))

theorem completable_insert (ms : MemStore) (id : SpanID) (s root : Addr) :
    Completable (.collectInsert id s root) ms := by
  by_cases h : id.isRoot = false ∧ s ≠ root
  · exact .more (.insertYes _ _ _ _ h) (completable_reattach _ _ _)
  · exact .more (.insertNo _ _ _ _ h) (completable_reattach _ _ _)

theorem completable_fixMove (ms : MemStore) (id : SpanID) (s old : Addr) : Completable (.fixMove id s old) ms :=
  .more (.fixMove _ _ _ _) (completable_insert _ _ _ _)

theorem completable_fixInsert (ms : MemStore) (id : SpanID) (s old : Addr) : Completable (.fixInsert id s old) ms :=
  .more (.fixInsert _ _ _ _) (completable_fixMove _ _ _ _)

theorem completable_fixReattach (ms : MemStore) (id : SpanID) (s old : Addr) (h : s ≠ old) :
    Completable (.fixReattach id s old) ms :=
  .more (.fixReattach _ _ _ _ _ (by simp [MemStore.reattachChildren, h]; rfl)) (completable_fixInsert _ _ _ _)

theorem completable_fix (ms : MemStore) (id : SpanID) (s root : Addr) : Completable (.collectFix id s root) ms := by
  by_cases h : s ≠ root ∧ (id.isRoot = true ∨ (ms.heap root).id.parent = id.span)
  · exact .more (.fixYes _ _ _ _ h) (completable_fixReattach _ _ _ _ h.1)
  · exact .more (.fixNo _ _ _ _ h) (completable_insert _ _ _ _)

theorem completable_root (ms : MemStore) (id : SpanID) (s : Addr) : Completable (.collectRoot id s) ms := by
  cases h : ms.trace.get id.trace with
  | none => exact .more (.rootNew _ _ _ h) (completable_fix _ _ _ _)
  | some r => exact .more (.rootPresent _ _ _ r h) (completable_fix _ _ _ _)

theorem completable_span (ms : MemStore) (id : SpanID) (as : List Annotation) (m : AMap ID Addr)
    (hm : ms.span.get id.trace = some m) : Completable (.collectSpan id as) ms := by
  cases h : m.get id.span with
  | none => exact .more (.spanNew _ _ _ m hm h) (completable_root _ _ _)
  | some s => exact .last (.spanPresent _ _ _ m s hm h)

theorem completable_collect (ms : MemStore) (id : SpanID) (as : List Annotation) :
    Completable (.collectInit id as) ms := by
  cases h : ms.span.get id.trace with
  | none => exact .more (.initMissing _ _ _ h) (completable_span _ _ _ [] (by simp))
  | some m => exact .more (.initPresent _ _ _ m h) (completable_span _ _ _ m h)

theorem completable_traces (ms : MemStore) (opts : TracesOpts) : Completable (.tracesInit opts) ms :=
  .more (.tracesInit _ _ _ (List.Perm.refl _)) (completable_tracesLoop _ _ _ (fun _ ht => (AMap.mem_keys_iff _ _).1 ht))

theorem completable_start (c : StoreCall) (ms : MemStore) : Completable c.start ms := by
  cases c with
  | collect id as => exact completable_collect _ _ _
  | delete ids => exact completable_deleteLoop _ _
  | trace t => exact .last (.traceGet _ _)
  | traces o => exact completable_traces _ _

/-- Steps preserve it. -/
theorem completable_step {l l' : StorePC} {ms ms' : MemStore} (h : StoreStep l ms ms' (.inl l'))
    (hc : Completable l ms) : Completable l' ms' := by
  cases h with
  | initMissing => exact completable_span _ _ _ [] (by simp)
  | initPresent _ _ _ m hm => exact completable_span _ _ _ m hm
  | spanNew => exact completable_root _ _ _
  | rootPresent => exact completable_fix _ _ _ _
  | rootNew => exact completable_fix _ _ _ _
  | fixYes _ _ _ _ hh => exact completable_fixReattach _ _ _ _ hh.1
  | fixNo => exact completable_insert _ _ _ _
  | fixReattach => exact completable_fixInsert _ _ _ _
  | fixInsert => exact completable_fixMove _ _ _ _
  | fixMove => exact completable_insert _ _ _ _
  | insertYes => exact completable_reattach _ _ _
  | insertNo => exact completable_reattach _ _ _
  | deleteTrace => exact .more (.deleteSpans _ _ _) (completable_deleteLoop _ _)
  | deleteSpans => exact completable_deleteLoop _ _
  | tracesInit _ _ todo hp =>
    exact completable_tracesLoop _ _ _ (fun t ht => (AMap.mem_keys_iff _ _).1 (hp.mem_iff.1 ht))
  | tracesNext _ t todo acc p hp =>
    obtain ⟨a, r, hr⟩ := hc
    exact completable_tracesLoop _ _ _ (fun t' ht' => (runs_tracesLoop hr).2.2 t' (by simp [ht']))

theorem completable_reachable {s : MemStore} {c : Mutex.Config storeMachine} (h : Mutex.Reachable storeMachine s c)
    {i : Nat} {op : StoreCall} {l : StorePC} (hi : c.threads i = .inside op l) : Completable l c.shared :=
  Mutex.inside_inv (M := storeMachine) Completable completable_start (fun _ _ _ _ hc hs => completable_step hs hc) h hi

end Appdash
