import Verif.Proofs.PersistCrash
import Verif.Properties.PersistEvery

/-!
# Property C155: what a snapshot holds survives crashes

The executions are those of C31: any number of process starts, store calls, `PersistEvery` steps, failures and crashes.  `e1` ends when
`Write` is called on the store `ms`; `e2` ends when the file is renamed, and has no crash; `e3` is whatever happens afterwards.
-/

namespace Appdash

open Spec

variable {file : FileName} {enc : GobData → List UInt8} {dec : List UInt8 → Option GobData}

/-- **C155**.  A trace that was in a snapshot which reached the file, and was neither collected nor deleted since, is shown as it was then
by every process that runs later, whatever crashes, restarts, failures and later snapshots there have been in between; and a trace that was
not in the store then is not shown. -/
theorem snapshot_survives (hdec : ∀ d, dec (enc d) = some d) {fs : AMap FileName (List UInt8)}
    (hf : ∀ b, fs.get file = some b → ∃ ms d, MemStore.Reachable ms ∧ ms.Writes d ∧ b = enc d) {e1 e2 e3 : List PersistEvent}
    {ms : MemStore} {σ : PersistState} (h : PersistRuns file enc dec ⟨fs, none⟩ (e1 ++ .write ms :: e2 ++ .rename :: e3) σ)
    (hc : .crash ∉ e2) {t : ID} (hu : Untouched t (e2 ++ e3)) {ms' : MemStore} {pc : PersistPC} (hp : σ.proc = some (ms', pc)) :
    SameResult (ms.view t) (ms'.view t) :=
  (shows_after_rename hdec hf hc (fun op hm => hu op (by simp [hm])) e3 h (fun op hm => hu op (by simp [hm]))).1.1 ms' pc hp

/-- **C155** (the next start).  If no process runs, one can be started, and shows the trace as it was then. -/
theorem snapshot_survives_start (hdec : ∀ d, dec (enc d) = some d) {fs : AMap FileName (List UInt8)}
    (hf : ∀ b, fs.get file = some b → ∃ ms d, MemStore.Reachable ms ∧ ms.Writes d ∧ b = enc d) {e1 e2 e3 : List PersistEvent}
    {ms : MemStore} {σ : PersistState} (h : PersistRuns file enc dec ⟨fs, none⟩ (e1 ++ .write ms :: e2 ++ .rename :: e3) σ)
    (hc : .crash ∉ e2) {t : ID} (hu : Untouched t (e2 ++ e3)) (hn : σ.proc = none) :
    ∃ σ' ms', PersistStep file enc dec σ .start σ' ∧ σ'.proc = some (ms', .idle) ∧ SameResult (ms.view t) (ms'.view t) := by
  obtain ⟨-, m, m1, m2⟩ := shows_after_rename hdec hf hc (fun op hm => hu op (by simp [hm])) e3 h (fun op hm => hu op (by simp [hm]))
  obtain ⟨⟨σ', st⟩, all⟩ := persist_recovers hdec hf h hn
  obtain ⟨ms', p1, p2⟩ := all σ' m st m1
  exact ⟨σ', ms', st, p1, SameResult.trans m2 (p2 t)⟩

/-- What was collected after the last snapshot is lost in a crash: `PersistEvery` promises no more. -/
theorem unsaved_lost {fs : AMap FileName (List UInt8)} (hfs : fs.get file = none) {id : SpanID} {as : List Annotation} {ms : MemStore}
    (hm : MemStore.new.collect id as = some ms) :
    PersistRuns file enc dec ⟨fs, none⟩ [.start, .call (.collect id as), .crash, .start] ⟨fs, some (MemStore.new, .idle)⟩ :=
  ((((PersistRuns.refl _).step (.startEmpty hfs)).step (.call (op := .collect id as) hm (by intros; exact fun h => by cases h))).step
    .crash).step (.startEmpty hfs)

/-- An execution that meets the hypotheses: a snapshot with trace 1, a call for trace 2, a crash, a restart, and another crash in the middle
of the next `PersistEvery`, and another restart. -/
example (enc : GobData → List UInt8) (dec : List UInt8 → Option GobData) (hdec : ∀ d, dec (enc d) = some d)
    (fs : AMap FileName (List UInt8)) (hfs : fs.get b!"f" = none) (ht : fs.get b!"t" = none) :
    ∃ ms e1 e2 e3 σ ms', MemStore.new.run [.collect ⟨1, 2, 0⟩ []] = some ms ∧
      PersistRuns b!"f" enc dec ⟨fs, none⟩ (e1 ++ .write ms :: e2 ++ .rename :: e3) σ ∧ .crash ∉ e2 ∧ Untouched 1 (e2 ++ e3) ∧
      .crash ∈ e3 ∧ (∃ as, .call (.collect ⟨2, 3, 0⟩ as) ∈ e3) ∧ σ.proc = some (ms', .idle) ∧
      SameResult (.found (.node ⟨⟨1, 2, 0⟩, []⟩ [])) (ms'.view 1) := by
  have h : ((MemStore.new.run [.collect ⟨1, 2, 0⟩ []]).bind fun ms => (ms.write 1).bind fun _ =>
      if ms.view 1 = .found (.node ⟨⟨1, 2, 0⟩, []⟩ []) then ms.run [.collect ⟨2, 3, 0⟩ []] else none).isSome = true := by decide_cbv
  cases h1 : MemStore.new.run [.collect ⟨1, 2, 0⟩ []] with
  | none => rw [h1] at h; cases h
  | some ms =>
    rw [h1] at h
    simp only [Option.bind_some] at h
    cases h2 : ms.write 1 with
    | none => rw [h2] at h; cases h
    | some d =>
      rw [h2] at h
      simp only [Option.bind_some] at h
      split at h
      · rename_i hv
        cases h3 : ms.run [.collect ⟨2, 3, 0⟩ []] with
        | none => rw [h3] at h; cases h
        | some ms2 =>
          have k1 : MemStore.new.step (.collect ⟨1, 2, 0⟩ []) = some ms := by
            simp only [MemStore.run] at h1
            split at h1
            · cases h1
            · rename_i e; rw [e]; exact h1
          have k3 : ms.step (.collect ⟨2, 3, 0⟩ []) = some ms2 := by
            simp only [MemStore.run] at h3
            split at h3
            · cases h3
            · rename_i e; rw [e]; exact h3
          have hne : b!"t" ≠ b!"f" := by decide
          have hnt : ∀ b : List UInt8, AMap.get (AMap.set (AMap.del (AMap.set (AMap.set fs b!"t" []) b!"t" b) b!"t") b!"f" b) b!"t" = none := by
            intro b
            rw [AMap.get_set_ne _ _ hne.symm]
            exact AMap.get_del_self _ _
          let run1 := PersistRuns.step (enc := enc) (dec := dec) (.refl ⟨fs, none⟩) (.startEmpty hfs)
          let run2 := run1.step (.call k1 (by intros; exact fun h => by cases h))
          let run3 := run2.step (.temp (tmp := b!"t") ht hne)
          let run4 := run3.step (.write ⟨1, h2⟩)
          let run5 := run4.step (by
            have := PersistStep.chunk (file := b!"f") (enc := enc) (dec := dec) (fs := AMap.set fs b!"t" [])
              (ms := ms) (tmp := b!"t") (now := enc d) (rest := []) (old := []) (AMap.get_set_self _ _ _)
            rw [List.append_nil] at this
            exact this)
          let run6 := run5.step .writeDone
          let run7 := run6.step .close
          let run8 := run7.step (.rename (AMap.get_set_self _ _ _))
          let run9 := run8.step (.call k3 (by intros; exact fun h => by cases h))
          let run10 := run9.step .crash
          let run11 := run10.step (.startRead (AMap.get_set_self _ _ _) (hdec d))
          let run12 := run11.step (.temp (tmp := b!"t") (hnt _) hne)
          let run13 := run12.step .crash
          let run14 := run13.step (.startRead (b := enc d) (by rw [AMap.get_set_ne _ _ hne]; exact AMap.get_set_self _ _ _) (hdec d))
          refine ⟨ms, [.start, .call (.collect ⟨1, 2, 0⟩ []), .other], [.other, .other, .other],
            [.call (.collect ⟨2, 3, 0⟩ []), .crash, .start, .other, .crash, .start], _, _, rfl, run14, by simp, ?_, by simp, ⟨[], by simp⟩,
            rfl, ?_⟩
          · intro op ho
            simp at ho
            subst ho
            show ¬ (2 : ID) = 1
            decide
          · have := snapshot_survives hdec (by rw [hfs]; simp) (e1 := [.start, .call (.collect ⟨1, 2, 0⟩ []), .other])
              (e2 := [.other, .other, .other]) (e3 := [.call (.collect ⟨2, 3, 0⟩ []), .crash, .start, .other, .crash, .start]) run14
              (by simp) (t := 1) (by
                intro op ho
                simp at ho
                subst ho
                show ¬ (2 : ID) = 1
                decide) rfl
            rw [hv] at this
            exact this
      · cases h

end Appdash
