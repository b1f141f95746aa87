import Verif.Proofs.WriteReturns
import Verif.Properties.Store

/-!
# Properties C29, C30, C59: writing a store to a file and reading it back

`ms.Writes d` says that `Write` returns and that the file then holds `d`; `dst.readFrom (some d)` is the store `dst`
after `ReadFrom` of that file, with the number `ReadFrom` reports.
-/

namespace Appdash

open Spec

/-- Stores built by `Collect` and `Delete` alone are reachable. -/
theorem reachable_of_run {ops : List StoreOp} {ms : MemStore} (h : MemStore.new.run ops = some ms) : ms.Reachable :=
  reachable_run .new h

/-- **C29**.  Reading back what was written makes `Trace` answer as before for every ID, whatever the receiving store
held, except that an empty annotation value may come back nil. -/
theorem persist_round_trip {ms : MemStore} (h : ms.Reachable) {d : GobData} (hw : ms.Writes d) (dst : MemStore) (t : ID) :
    SameResult (ms.view t) ((dst.readFrom (some d)).1.view t) := by
  rcases readFrom_view h.sound hw dst t with ⟨e1, e2⟩ | ⟨tr, e1, e2⟩
  · rw [e1, e2]; exact .notFound
  · rw [e1, e2]; exact .found (gobTree_same tr)

/-- **C29** (exactly the same).  If no annotation value in the tree is empty without being nil, the answer is exactly the
same. -/
theorem persist_round_trip_exact {ms : MemStore} (h : ms.Reachable) {d : GobData} (hw : ms.Writes d) (dst : MemStore)
    (t : ID) (hne : ∀ tr, ms.view t = .found tr → ∀ sp ∈ tr.spans, ∀ a ∈ sp.annotations, a.value ≠ some []) :
    (dst.readFrom (some d)).1.view t = ms.view t := by
  rcases readFrom_view h.sound hw dst t with ⟨e1, e2⟩ | ⟨tr, e1, e2⟩
  · rw [e1, e2]
  · rw [e1, e2, gobTree_id _ (hne tr e1)]

/-- **C29** (the count).  `ReadFrom` reports the number of traces the store held. -/
theorem persist_count {ms : MemStore} (h : ms.Reachable) {d : GobData} (hw : ms.Writes d) (dst : MemStore) :
    ∃ ids : List ID, ids.Nodup ∧ (∀ t, t ∈ ids ↔ ms.view t ≠ .notFound) ∧
      (dst.readFrom (some d)).2 = some ids.length := by
  obtain ⟨fuel, hw⟩ := hw
  obtain ⟨w1, -⟩ := write_inv hw
  obtain ⟨t1, -, -, -⟩ := encodeMap_spec w1
  obtain ⟨-, -, a3, -, -, -⟩ := allocMap_spec d.trace (dst.heap, dst.next)
  refine ⟨AMap.keys ms.trace, h.sound.keysT, ?_, ?_⟩
  · intro t
    rw [AMap.mem_keys_iff_exists]
    constructor
    · rintro ⟨a, ha⟩ hv
      unfold MemStore.view MemStore.tracePtr at hv
      rw [ha] at hv
      simp only at hv
      split at hv <;> cases hv
    · intro hv
      cases hg : ms.trace.get t with
      | none => exact absurd (by simp [MemStore.view, MemStore.tracePtr, hg]) hv
      | some a => exact ⟨a, rfl⟩
  · show some _ = some _
    rw [a3, t1, AMap.keys, List.length_map]

/-- **C29** (failure).  If the input does not decode, `ReadFrom` leaves the store alone and reports no number. -/
theorem readFrom_failure (dst : MemStore) : dst.readFrom none = (dst, none) := rfl

/-- The store after `sampleOps`, written and read back. -/
def sampleRestart : Option (TraceResult × TraceResult × TraceResult × Option Nat) :=
  (MemStore.new.run sampleOps).bind fun ms => (ms.write 4).map fun d =>
    let r := MemStore.new.readFrom (some d)
    (r.1.view 1, r.1.view 2, r.1.view 9, r.2)

example : sampleRestart = some (.found sampleTree,
    .found (.node ⟨⟨2, 8, 7⟩, []⟩ [.node ⟨⟨2, 9, 6⟩, []⟩ []]), .notFound, some 2) := by decide_cbv

/-- **C29** (the exception is real).  An empty value comes back nil. -/
theorem empty_value_becomes_nil :
    ((MemStore.new.run [.collect ⟨1, 2, 0⟩ [⟨b!"k", some []⟩]]).bind fun ms =>
      (ms.write 1).map fun d => (ms.view 1, (MemStore.new.readFrom (some d)).1.view 1)) =
    some (.found (.node ⟨⟨1, 2, 0⟩, [⟨b!"k", some []⟩]⟩ []), .found (.node ⟨⟨1, 2, 0⟩, [⟨b!"k", none⟩]⟩ [])) := by
  decide_cbv

/-! ## C59: does `Write` return? -/

/-- **C59**, as a user would expect it: `Write` returns for every store. -/
def WriteReturns : Prop :=
  ∀ (ops : List StoreOp) (ms : MemStore), MemStore.new.run ops = some ms → ∃ d, ms.Writes d

/-- **C59** (exact condition).  `Write` returns exactly if every collected span is shown in the tree of its trace. -/
theorem write_returns_iff_partial {ops : List StoreOp} {ms : MemStore} (h : MemStore.new.run ops = some ms) :
    (∃ d, ms.Writes d) ↔
    ∀ t s, Collected (live t ops) s → ∃ tr, ms.view t = .found tr ∧ ∃ sp ∈ tr.spans, sp.id.span = s :=
  ⟨fun ⟨_, hd⟩ => visible_of_writes h hd, writes_of_visible h⟩

/-- **C59** (acyclic traces).  `Write` returns if no span of any trace is its own ancestor. -/
theorem write_returns_acyclic_partial {ops : List StoreOp} {ms : MemStore} (h : MemStore.new.run ops = some ms)
    (hac : ∀ t, Acyclic (live t ops)) : ∃ d, ms.Writes d :=
  writes_of_visible h fun t s hc => no_span_lost h t s hc fun ⟨a, _, haa⟩ => hac t a haa

/-- **C59** (false in general).  After two spans that name each other as parent and then a parentless span, `Write` does
not return. -/
theorem write_returns_false : ¬ WriteReturns := by
  intro hw
  have hr := cyclic_spans_lost
  cases h : MemStore.new.run [.collect ⟨1, 2, 3⟩ [], .collect ⟨1, 3, 2⟩ [], .collect ⟨1, 4, 0⟩ []] with
  | none => rw [h] at hr; cases hr
  | some ms =>
    rw [h] at hr
    injection hr with hr
    obtain ⟨d, hd⟩ := hw _ ms h
    obtain ⟨tr, e, sp, hsp, hid⟩ := (write_returns_iff_partial h).1 ⟨d, hd⟩ 1 2 (by decide)
    have hr' : ms.view 1 = .found (.node ⟨⟨1, 4, 0⟩, []⟩ []) := hr
    rw [hr'] at e
    injection e with e
    subst e
    simp only [Tree.spans, Tree.spansList, List.mem_singleton] at hsp
    subst hsp
    cases hid

example : ∃ ms d, MemStore.new.run sampleOps = some ms ∧ ms.Writes d := by
  have h : ((MemStore.new.run sampleOps).bind fun ms => ms.write 4).isSome = true := by decide_cbv
  cases h1 : MemStore.new.run sampleOps with
  | none => rw [h1] at h; cases h
  | some ms =>
    rw [h1] at h
    cases h2 : ms.write 4 with
    | none => simp only [Option.bind_some, h2] at h; cases h
    | some d => exact ⟨ms, d, rfl, 4, h2⟩

/-! ## C30: collecting after a restart -/

/-- **C30**, as a user would expect it: a restart makes no difference to later calls. -/
def RestartTransparent : Prop :=
  ∀ (ops ops' : List StoreOp) (ms ms1 : MemStore) (d : GobData), MemStore.new.run ops = some ms → ms.Writes d →
    MemStore.new.run (ops ++ ops') = some ms1 →
    ∃ ms2, (MemStore.new.readFrom (some d)).1.run ops' = some ms2 ∧ ∀ t, SameResult (ms1.view t) (ms2.view t)

/-- **C30** (what holds).  After a restart no call panics; a trace that was absent at the restart, or that is deleted
afterwards, is shown exactly as without the restart; a trace that no call after the restart touches is shown as without
the restart, up to empty values having become nil.  Missing: traces collected before the restart and collected for
again afterwards, of which `restart_shown` (C131) says what is shown. -/
theorem restart_partial {ops : List StoreOp} {ms : MemStore} (h : MemStore.new.run ops = some ms) {d : GobData}
    (hw : ms.Writes d) (ops' : List StoreOp) {ms1 : MemStore} (h1 : MemStore.new.run (ops ++ ops') = some ms1) :
    ∃ ms2, (MemStore.new.readFrom (some d)).1.run ops' = some ms2 ∧
      (∀ t, ms.view t = .notFound ∨ Deletes t ops' → ms2.view t = ms1.view t) ∧
      (∀ t, ¬ Collects t ops' → SameResult (ms1.view t) (ms2.view t)) := by
  have Sd := (reachable_of_run h).sound
  have L := (readFrom_sound Sd hw new_loose).loose
  obtain ⟨ms2, e2, L2⟩ := run_loose L ops'
  have hl : ∀ t, live t (ops ++ ops') = ops'.foldl (liveStep t) (live t ops) := by
    intro t; unfold live; rw [List.foldl_append]
  have hdel : ∀ t, Deletes t ops' → ms2.view t = ms1.view t := by
    intro t ht
    obtain ⟨ms2', e2', S⟩ := run_deletes L ht
    rw [e2] at e2'
    injection e2' with e2'
    subst e2'
    have S1 := (run_state h1 t).1
    rw [hl] at S1
    exact view_simT (S _) S1
  have habs : ∀ t, ms.view t = .notFound → ms2.view t = ms1.view t := by
    intro t ht
    have hlt : live t ops = [] := by
      rcases run_view h t with ⟨h1, -⟩ | ⟨-, T, tr, -, -, h2, -⟩
      · exact h1
      · rw [ht] at h2; cases h2
    have hS := (run_state h t).1
    rw [hlt] at hS
    obtain ⟨ms2', e2', S⟩ := run_simT L (readFrom_absent hw MemStore.new hS.1 hS.2) rfl ops'
    rw [e2] at e2'
    injection e2' with e2'
    subst e2'
    have S1 := (run_state h1 t).1
    rw [hl, hlt] at S1
    exact view_simT S S1
  refine ⟨ms2, e2, fun t ht => ht.elim (habs t) (hdel t), fun t hc => ?_⟩
  by_cases hd : Deletes t ops'
  · rw [hdel t hd]; exact SameResult.refl _ (view_ne_infinite h1 t)
  · have hv1 : ms1.view t = ms.view t :=
      view_of_live h1 h t (by rw [hl]; exact live_of_not ops' _ hc hd)
    rcases readFrom_view Sd hw MemStore.new t with ⟨f1, f2⟩ | ⟨tr, f1, f2⟩
    · rw [habs t f1, hv1, f1]; exact .notFound
    · obtain ⟨ms2', e2', v2⟩ := run_view_other ops' L hc hd f2
      rw [e2] at e2'
      injection e2' with e2'
      subst e2'
      rw [hv1, f1, v2]
      exact .found (gobTree_same tr)

/-- **C30** (false in general).  Annotations collected after a restart for a span that existed before are not shown,
and neither are new children of it. -/
theorem restart_loses_updates :
    ((MemStore.new.run [.collect ⟨1, 5, 0⟩ []]).bind fun ms => (ms.write 1).bind fun d =>
      ((MemStore.new.readFrom (some d)).1.run [.collect ⟨1, 5, 0⟩ [⟨b!"k", none⟩], .collect ⟨1, 6, 5⟩ []]).map fun ms2 =>
        ms2.view 1) = some (.found (.node ⟨⟨1, 5, 0⟩, []⟩ [])) ∧
    (MemStore.new.run [.collect ⟨1, 5, 0⟩ [], .collect ⟨1, 5, 0⟩ [⟨b!"k", none⟩], .collect ⟨1, 6, 5⟩ []]).map
        (fun ms => ms.view 1) =
      some (.found (.node ⟨⟨1, 5, 0⟩, [⟨b!"k", none⟩]⟩ [.node ⟨⟨1, 6, 5⟩, []⟩ []])) := by
  constructor <;> decide_cbv

/-- **C30** is false. -/
theorem restart_transparent_false : ¬ RestartTransparent := by
  intro hR
  obtain ⟨w1, w2⟩ := restart_loses_updates
  cases h : MemStore.new.run [.collect ⟨1, 5, 0⟩ []] with
  | none => rw [h] at w1; cases w1
  | some ms =>
    rw [h] at w1
    simp only [Option.bind_some] at w1
    cases hd : ms.write 1 with
    | none => rw [hd] at w1; cases w1
    | some d =>
      rw [hd] at w1
      simp only [Option.bind_some] at w1
      cases h1 : MemStore.new.run
          [.collect ⟨1, 5, 0⟩ [], .collect ⟨1, 5, 0⟩ [⟨b!"k", none⟩], .collect ⟨1, 6, 5⟩ []] with
      | none => rw [h1] at w2; cases w2
      | some ms1 =>
        rw [h1] at w2
        injection w2 with w2
        obtain ⟨ms2, e2, hs⟩ := hR _ _ ms ms1 d h ⟨1, hd⟩ h1
        rw [e2] at w1
        injection w1 with w1
        simp only at w1 w2
        have := hs 1
        rw [w1, w2] at this
        cases this with
        | found hs => cases hs with
          | node _ ha _ => cases ha

end Appdash
