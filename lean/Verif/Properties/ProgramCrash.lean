import Verif.Proofs.ProgramCrash
import Verif.Properties.PersistCrash
import Verif.Properties.Services

/-!
# Property C156: the trace of a program survives the crashes of the server

The executions are those of C31 and C155.  During `e0` nothing is collected for the trace; then a process is started, which receives the
calls of the program during `e1`; it calls `Write`, and the file is renamed at the end of `e2`; `e3` is whatever happens afterwards.
-/

namespace Appdash

open Spec

variable {file : FileName} {enc : GobData → List UInt8} {dec : List UInt8 → Option GobData}

/-- What the process that writes the snapshot shows, and what every later process shows. -/
theorem shown_after_crashes (hdec : ∀ d, dec (enc d) = some d) {t : ID} {fs : AMap FileName (List UInt8)}
    (hf : ∀ b, fs.get file = some b → ∃ ms d, MemStore.Reachable ms ∧ ms.Writes d ∧ b = enc d ∧ ms.view t = .notFound)
    {e0 e1 e2 e3 : List PersistEvent} {ms : MemStore} {σ : PersistState}
    (h : PersistRuns file enc dec ⟨fs, none⟩ (e0 ++ .start :: e1 ++ .write ms :: e2 ++ .rename :: e3) σ)
    (hs : .start ∉ e1) (hc : .crash ∉ e2) (hu : Untouched t (e0 ++ e2 ++ e3)) {ms' : MemStore} {pc : PersistPC}
    (hp : σ.proc = some (ms', pc)) :
    ∃ ms1, MemStore.new.run (storeCalls e1) = some ms1 ∧ SameResult (ms1.view t) (ms'.view t) := by
  have hf' : ∀ b, fs.get file = some b → ∃ ms d, MemStore.Reachable ms ∧ ms.Writes d ∧ b = enc d := fun b hb => by
    obtain ⟨ms, d, h1, h2, h3, -⟩ := hf b hb
    exact ⟨ms, d, h1, h2, h3⟩
  have same := snapshot_survives hdec hf' h hc (t := t) (fun op hm => hu op (by simp at hm ⊢; tauto)) hp
  obtain ⟨σ1, tmp, h1, h2⟩ := h.write_split (ms := ms) (e1 := e0 ++ .start :: e1) (e2 := e2 ++ .rename :: e3) (by simp)
  obtain ⟨σ2, ms0, k1, k2, k3⟩ := started_run e1 hs h1 h2
  have L := lacking_run hdec hf k1 (fun op hm => hu op (by simp at hm ⊢; tauto))
  obtain ⟨ms1, m1, m2⟩ := absent_run ((k1.reach hdec hf').1.1 ms0 _ k2) (L.1 ms0 _ k2) k3
  exact ⟨ms1, m1, m2 ▸ same⟩

/-- **C156** (recorders).  The trace of a program whose recorders' calls have all reached the store before a snapshot that reached the file
is shown by every later process as the tree of the program's spans with all recorded events. -/
theorem program_survives_crashes {reg : Registry} (hreg : registerAll libraryEvents [] = some reg) (hdec : ∀ d, dec (enc d) = some d)
    {tr : Tree} (hct : CausalTree tr) (recs : SpanID → Recording) (hpr : ∀ sp ∈ tr.spans, (recs sp.id).Proper sp.id)
    {fs : AMap FileName (List UInt8)}
    (hf : ∀ b, fs.get file = some b →
      ∃ ms d, MemStore.Reachable ms ∧ ms.Writes d ∧ b = enc d ∧ ms.view tr.span.id.trace = .notFound)
    {e0 e1 e2 e3 : List PersistEvent} {ms : MemStore} {σ : PersistState}
    (h : PersistRuns file enc dec ⟨fs, none⟩ (e0 ++ .start :: e1 ++ .write ms :: e2 ++ .rename :: e3) σ)
    (hs : .start ∉ e1) (hc : .crash ∉ e2) (hu : Untouched tr.span.id.trace (e0 ++ e2 ++ e3))
    (hL : (live tr.span.id.trace (storeCalls e1)).Perm (tr.spans.flatMap fun sp => (recs sp.id).calls sp.id))
    {ms' : MemStore} {pc : PersistPC} (hp : σ.proc = some (ms', pc)) :
    ∃ tr', ms'.view tr.span.id.trace = .found tr' ∧ TreeEquiv (reannotate (fun _ => []) tr') (reannotate (fun _ => []) tr) ∧
      ∀ sp ∈ tr'.spans, ∃ out, unmarshalEvents reg sp.annotations = some (out, none) ∧ AreEvents (recs sp.id).events out := by
  obtain ⟨ms1, m1, same⟩ := shown_after_crashes hdec hf h hs hc hu hp
  obtain ⟨tr1, v1, v2, v3⟩ := recorded_program_shown hreg m1 hct recs hpr hL
  rw [v1] at same
  generalize hr : ms'.view tr.span.id.trace = r at same
  cases same with
  | @found _ tr' st =>
    refine ⟨tr', rfl, by rw [← SameTree.shape _ st]; exact v2, ?_⟩
    intro sp hsp
    obtain ⟨sp', q1, q2, q3⟩ := SameTree.spans st sp hsp
    rw [← unmarshalEvents_same (fun s E => library_no_unmarshaler hreg) q3, ← q2]
    exact v3 sp' q1

/-- **C156** (services).  The same for a program of HTTP services. -/
theorem services_survive_crashes {reg : Registry} (hreg : registerAll libraryEvents [] = some reg) (hdec : ∀ d, dec (enc d) = some d)
    {root : Handled} (hok : root.Ok) (hfirst : root.req.header.Lacks b!"Span-Id" ∧ root.req.header.Lacks b!"Parent-Span-Id")
    (hd : (root.tree.spans.map fun sp => sp.id.span).Nodup) (hz : ∀ sp ∈ root.tree.spans, sp.id.span ≠ 0)
    {fs : AMap FileName (List UInt8)}
    (hf : ∀ b, fs.get file = some b →
      ∃ ms d, MemStore.Reachable ms ∧ ms.Writes d ∧ b = enc d ∧ ms.view root.req.id.trace = .notFound)
    {e0 e1 e2 e3 : List PersistEvent} {ms : MemStore} {σ : PersistState}
    (h : PersistRuns file enc dec ⟨fs, none⟩ (e0 ++ .start :: e1 ++ .write ms :: e2 ++ .rename :: e3) σ)
    (hs : .start ∉ e1) (hc : .crash ∉ e2) (hu : Untouched root.req.id.trace (e0 ++ e2 ++ e3))
    (hL : (live root.req.id.trace (storeCalls e1)).Perm root.deliveries) {ms' : MemStore} {pc : PersistPC}
    (hp : σ.proc = some (ms', pc)) :
    ∃ tr, ms'.view root.req.id.trace = .found tr ∧ TreeEquiv (reannotate (fun _ => []) tr) root.tree ∧
      ∀ sp ∈ tr.spans, ∃ evs, unmarshalEvents reg sp.annotations = some (evs, none) ∧ root.Shows sp.id evs := by
  obtain ⟨ms1, m1, same⟩ := shown_after_crashes hdec hf h hs hc hu hp
  obtain ⟨tr1, v1, v2, v3⟩ := services_shown hreg m1 hok hfirst hd hz hL
  rw [v1] at same
  generalize hr : ms'.view root.req.id.trace = r at same
  cases same with
  | @found _ tr' st =>
    refine ⟨tr', rfl, by rw [← SameTree.shape _ st]; exact v2, ?_⟩
    intro sp hsp
    obtain ⟨sp', q1, q2, q3⟩ := SameTree.spans st sp hsp
    rw [← unmarshalEvents_same (fun s E => library_no_unmarshaler hreg) q3, ← q2]
    exact v3 sp' q1

/-! ## The hypotheses are met -/

/-- An idle process receives calls. -/
theorem persist_calls {σ0 : PersistState} {fs : AMap FileName (List UInt8)} :
    ∀ (ops : List StoreOp) {evs : List PersistEvent} {ms ms' : MemStore}, PersistRuns file enc dec σ0 evs ⟨fs, some (ms, .idle)⟩ →
      ms.run ops = some ms' → PersistRuns file enc dec σ0 (evs ++ ops.map .call) ⟨fs, some (ms', .idle)⟩
  | [], evs, ms, ms', h, hr => by
    simp only [MemStore.run, Option.some.injEq] at hr
    subst hr
    simpa using h
  | op :: ops, evs, ms, ms', h, hr => by
    simp only [MemStore.run] at hr
    split at hr
    · cases hr
    · rename_i ms1 e
      have := persist_calls ops (h.step (.call e (by intros; exact fun h => by cases h))) hr
      simpa using this

/-- Two recorders record three events. -/
def crashRecs : SpanID → Recording := fun id => sampleRecording
  (if id.parent = 0 then
    [(spanNameEvent, .struct [.scalar (.string b!"home")]), (msgEvent, .struct [.scalar (.string b!"hello")])]
  else [(spanNameEvent, .struct [.scalar (.string b!"query")])])

/-- Their calls, with one of another trace between them. -/
def crashOps : List StoreOp :=
  [.collect ⟨1, 6, 5⟩ ((crashRecs ⟨1, 6, 5⟩).before.flatMap eventAnnotations), .collect ⟨2, 6, 5⟩ [],
    .collect ⟨1, 5, 0⟩ ((crashRecs ⟨1, 5, 0⟩).before.flatMap eventAnnotations)]

/-- A process gets the calls of two recorders, writes a snapshot and crashes.  The next process gets a call of another trace and crashes as
well.  All hypotheses of `program_survives_crashes` are met with the third process. -/
example (enc : GobData → List UInt8) (dec : List UInt8 → Option GobData) (hdec : ∀ d, dec (enc d) = some d) :
    ∃ (tr : Tree) (ms : MemStore) (e0 e1 e2 e3 : List PersistEvent) (σ : PersistState) (ms' : MemStore),
      CausalTree tr ∧ tr.spans.length = 2 ∧ (∀ sp ∈ tr.spans, (crashRecs sp.id).Proper sp.id ∧ (crashRecs sp.id).events ≠ []) ∧
      PersistRuns b!"f" enc dec ⟨[], none⟩ (e0 ++ .start :: e1 ++ .write ms :: e2 ++ .rename :: e3) σ ∧ .start ∉ e1 ∧ .crash ∉ e2 ∧
      Untouched tr.span.id.trace (e0 ++ e2 ++ e3) ∧ .crash ∈ e3 ∧ (∃ as, .call (.collect ⟨3, 3, 0⟩ as) ∈ e3) ∧
      (live tr.span.id.trace (storeCalls e1)).Perm (tr.spans.flatMap fun sp => (crashRecs sp.id).calls sp.id) ∧
      σ.proc = some (ms', .idle) := by
  have h5 : (crashRecs ⟨1, 5, 0⟩).Proper ⟨1, 5, 0⟩ := sampleRecording_proper _ _
    (by intro e he
        rcases List.mem_cons.1 he with rfl | he
        · exact ⟨by simp [libraryEvents], by decide⟩
        · rw [List.mem_singleton.1 he]; exact ⟨by simp [libraryEvents], by decide⟩) (by decide) (by decide)
  have h6 : (crashRecs ⟨1, 6, 5⟩).Proper ⟨1, 6, 5⟩ := sampleRecording_proper _ _
    (by intro e he; rw [List.mem_singleton.1 he]; exact ⟨by simp [libraryEvents], by decide⟩) (by decide) (by decide)
  have h : ((MemStore.new.run crashOps).bind fun ms => ms.write 2).isSome = true := by decide_cbv
  cases h1 : MemStore.new.run crashOps with
  | none => rw [h1] at h; cases h
  | some ms =>
    rw [h1] at h
    simp only [Option.bind_some] at h
    cases h2 : ms.write 2 with
    | none => rw [h2] at h; cases h
    | some d =>
      have hne : b!"t" ≠ b!"f" := by decide
      let run1 := PersistRuns.step (enc := enc) (dec := dec) (.refl ⟨[], none⟩) (.startEmpty (file := b!"f") rfl)
      let run2 := persist_calls crashOps run1 h1
      let run3 := run2.step (.temp (tmp := b!"t") rfl hne)
      let run4 := run3.step (.write ⟨2, h2⟩)
      let run5 := run4.step (by
        have := PersistStep.chunk (file := b!"f") (enc := enc) (dec := dec) (fs := AMap.set [] b!"t" [])
          (ms := ms) (tmp := b!"t") (now := enc d) (rest := []) (old := []) (AMap.get_set_self _ _ _)
        rw [List.append_nil] at this
        exact this)
      let run6 := run5.step .writeDone
      let run7 := run6.step .close
      let run8 := run7.step (.rename (AMap.get_set_self _ _ _))
      let run9 := run8.step .crash
      let run10 := run9.step (.startRead (AMap.get_set_self _ _ _) (hdec d))
      obtain ⟨ms3, h3, -⟩ := step_loose ((run10.reach hdec (by rintro b ⟨⟩)).1.1 _ _ rfl).sound.loose (.collect ⟨3, 3, 0⟩ [])
      let run11 := run10.step (.call h3 (by intros; exact fun h => by cases h))
      let run12 := run11.step .crash
      let run13 := run12.step (.startRead (AMap.get_set_self _ _ _) (hdec d))
      refine ⟨.node ⟨⟨1, 5, 0⟩, []⟩ [.node ⟨⟨1, 6, 5⟩, []⟩ []], ms, [], crashOps.map .call ++ [.other], [.other, .other, .other],
        [.crash, .start, .call (.collect ⟨3, 3, 0⟩ []), .crash, .start], _, _, ⟨⟨1, 5, rfl⟩, ?_, by decide, by decide⟩, by decide, ?_,
        by simpa using run13, by simp, by simp, ?_, by simp, ⟨[], by simp⟩, ?_, rfl⟩
      · intro e he
        rw [List.mem_singleton.1 he]
        exact ⟨6, rfl⟩
      · intro sp hsp
        simp only [Tree.spans, Tree.spansList, List.append_nil, List.mem_cons, List.not_mem_nil, or_false] at hsp
        rcases hsp with rfl | rfl
        · exact ⟨h5, by simp [crashRecs, sampleRecording]⟩
        · exact ⟨h6, by simp [crashRecs, sampleRecording]⟩
      · intro op ho
        simp at ho
        subst ho
        show ¬ (3 : ID) = 1
        decide
      · simp only [Tree.spans, Tree.spansList, List.append_nil, List.flatMap_cons, List.flatMap_nil, proper_calls h5, proper_calls h6]
        exact List.Perm.swap _ _ _

end Appdash
