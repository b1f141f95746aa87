import Verif.Proofs.PersistEvery
import Verif.Properties.Persist

/-!
# Property C31: periodic persistence

An execution starts with any files and no process, and consists of any number of process starts, store calls,
`PersistEvery` steps, failures and crashes, in any order the code allows.  `lastSnapshot evs` is the store on which
`Write` was called last before the last successful rename.
-/

namespace Appdash

open Spec

variable {file : FileName} {enc : GobData → List UInt8} {dec : List UInt8 → Option GobData}

/-- **C31**.  At every instant the file holds what it held at the beginning, if no rename has succeeded yet, and
otherwise a complete snapshot: what `Write` writes for the store it was called on last before the last successful
rename. -/
theorem persist_crash_safe {fs : AMap FileName (List UInt8)} {evs : List PersistEvent} {σ : PersistState}
    (h : PersistRuns file enc dec ⟨fs, none⟩ evs σ) :
    match lastSnapshot evs with
    | none => σ.files.get file = fs.get file
    | some ms => ∃ d, ms.Writes d ∧ σ.files.get file = some (enc d) := by
  have := h.inv.1
  unfold lastSnapshot
  cases hs : (evs.foldl snapshotStep (none, none)).2 with
  | none => rw [hs] at this; exact this
  | some ms => rw [hs] at this; exact this

/-- **C31** (what a snapshot is).  Each `Write` is called on the store of the running process, which has seen exactly the
calls made since the process started. -/
theorem write_sees_store {fs : AMap FileName (List UInt8)} {evs e1 e2 : List PersistEvent} {σ : PersistState}
    {ms : MemStore} (h : PersistRuns file enc dec ⟨fs, none⟩ evs σ) (he : evs = e1 ++ PersistEvent.write ms :: e2) :
    ∃ ms0, (ms0 = MemStore.new ∨ ∃ d, ms0 = (MemStore.new.readFrom (some d)).1) ∧
      ms0.run (callsSinceStart e1) = some ms := by
  obtain ⟨σ1, tmp, h1, h2⟩ := h.write_split he
  exact h1.calls _ _ h2

/-- **C31** (recovery).  Suppose gob decodes what it encodes and the file initially was absent or written by a store.
Then whenever the process is down, it can be started again; and whichever way it starts, `Trace` answers as in the store
of the last complete snapshot, if there is one. -/
theorem persist_recovers (hdec : ∀ d, dec (enc d) = some d) {fs : AMap FileName (List UInt8)}
    (hf : ∀ b, fs.get file = some b → ∃ ms d, MemStore.Reachable ms ∧ ms.Writes d ∧ b = enc d)
    {evs : List PersistEvent} {σ : PersistState} (h : PersistRuns file enc dec ⟨fs, none⟩ evs σ) (hn : σ.proc = none) :
    (∃ σ', PersistStep file enc dec σ .start σ') ∧
    ∀ σ' ms, PersistStep file enc dec σ .start σ' → lastSnapshot evs = some ms →
      ∃ ms', σ'.proc = some (ms', .idle) ∧ ∀ t, SameResult (ms.view t) (ms'.view t) := by
  obtain ⟨⟨-, -, R3⟩, G⟩ := h.reach hdec hf
  obtain ⟨files, proc⟩ := σ
  have hn : proc = none := hn
  subst hn
  refine ⟨?_, ?_⟩
  · cases hg : files.get file with
    | none => exact ⟨_, .startEmpty hg⟩
    | some b =>
      obtain ⟨ms, d, -, -, rfl⟩ := G b hg
      exact ⟨_, .startRead hg (hdec d)⟩
  · intro σ' ms st hl
    have hI := persist_crash_safe h
    rw [hl] at hI
    obtain ⟨d, h1, h2⟩ := hI
    have h2 : files.get file = some (enc d) := h2
    cases st with
    | startEmpty hg => rw [h2] at hg; cases hg
    | startRead hg hd =>
      rw [h2] at hg
      injection hg with hg
      subst hg
      rw [hdec] at hd
      injection hd with hd
      subst hd
      exact ⟨_, rfl, persist_round_trip (R3 ms hl) h1 _⟩

/-- An execution with a complete first snapshot and a crash in the middle of writing the second. -/
example (enc : GobData → List UInt8) (dec : List UInt8 → Option GobData) (fs : AMap FileName (List UInt8))
    (hfs : fs.get b!"f" = none) (ht : fs.get b!"t" = none) :
    ∃ ms evs σ, MemStore.new.run [.collect ⟨1, 2, 0⟩ []] = some ms ∧ lastSnapshot evs = some ms ∧
      σ.proc = none ∧ PersistRuns b!"f" enc dec ⟨fs, none⟩ evs σ := by
  have h : ((MemStore.new.run [.collect ⟨1, 2, 0⟩ []]).bind fun ms => (ms.write 1).bind fun _ =>
      (ms.run [.collect ⟨1, 3, 2⟩ []]).bind fun ms => ms.write 2).isSome = true := by decide_cbv
  cases h1 : MemStore.new.run [.collect ⟨1, 2, 0⟩ []] with
  | none => rw [h1] at h; cases h
  | some ms =>
    rw [h1] at h
    simp only [Option.bind_some] at h
    cases h2 : ms.write 1 with
    | none => rw [h2] at h; cases h
    | some d =>
      rw [h2] at h
      simp only [Option.bind_some] at h
      cases h3 : ms.run [.collect ⟨1, 3, 2⟩ []] with
      | none => rw [h3] at h; cases h
      | some ms' =>
        rw [h3] at h
        simp only [Option.bind_some] at h
        cases h4 : ms'.write 2 with
        | none => rw [h4] at h; cases h
        | some d' =>
          have k1 : MemStore.new.step (.collect ⟨1, 2, 0⟩ []) = some ms := by
            simp only [MemStore.run] at h1
            split at h1
            · cases h1
            · rename_i e; rw [e]; exact h1
          have k3 : ms.step (.collect ⟨1, 3, 2⟩ []) = some ms' := by
            simp only [MemStore.run] at h3
            split at h3
            · cases h3
            · rename_i e; rw [e]; exact h3
          have hne : b!"t" ≠ b!"f" := by decide
          let run1 := PersistRuns.step (enc := enc) (dec := dec) (.refl ⟨fs, none⟩) (.startEmpty hfs)
          let run2 := run1.step (.call k1 (by intros; exact fun h => by cases h))
          let run3 := run2.step (.temp (tmp := b!"t") ht hne)
          let run4 := run3.step (.write ⟨1, h2⟩)
          have e5 : enc d = enc d ++ [] := (List.append_nil _).symm
          let run5 := run4.step (by
            have := PersistStep.chunk (file := b!"f") (enc := enc) (dec := dec) (fs := AMap.set fs b!"t" [])
              (ms := ms) (tmp := b!"t") (now := enc d) (rest := []) (old := []) (AMap.get_set_self _ _ _)
            rw [List.append_nil] at this
            exact this)
          let run6 := run5.step .writeDone
          let run7 := run6.step .close
          let run8 := run7.step (.rename (AMap.get_set_self _ _ _))
          let run9 := run8.step (.call k3 (by intros; exact fun h => by cases h))
          let run10 := run9.step (.temp (tmp := b!"t")
            (by rw [AMap.get_set_ne _ _ hne.symm]; exact AMap.get_del_self _ _) hne)
          let run11 := run10.step (.write ⟨2, h4⟩)
          let run12 := run11.step .crash
          exact ⟨ms, _, _, rfl, rfl, rfl, run12⟩

end Appdash
