import Verif.Proofs.WriteReturns

/-! # Invariants of `PersistEvery` -/

namespace Appdash

open Spec

section
variable {file : FileName} {enc : GobData → List UInt8} {dec : List UInt8 → Option GobData}

/-- `b` is a snapshot of `ms`. -/
def Snap (enc : GobData → List UInt8) (o : Option MemStore) (b : List UInt8) : Prop :=
  ∃ ms d, o = some ms ∧ ms.Writes d ∧ b = enc d

/-- What holds at each point of `PersistEvery`. -/
def PCInv (file : FileName) (enc : GobData → List UInt8) (fs : AMap FileName (List UInt8)) (o : Option MemStore) :
    PersistPC → Prop
  | .idle => True
  | .created tmp => tmp ≠ file ∧ fs.get tmp = some []
  | .writing tmp rest => tmp ≠ file ∧ ∃ old, fs.get tmp = some old ∧ Snap enc o (old ++ rest)
  | .written tmp => tmp ≠ file ∧ ∃ b, fs.get tmp = some b ∧ Snap enc o b
  | .closed tmp => tmp ≠ file ∧ ∃ b, fs.get tmp = some b ∧ Snap enc o b
  | .returned => True

/-- The content of the file. -/
def FileInv (file : FileName) (enc : GobData → List UInt8) (init : Option (List UInt8)) (fs : AMap FileName (List UInt8)) :
    Option MemStore → Prop
  | none => fs.get file = init
  | some ms => ∃ d, ms.Writes d ∧ fs.get file = some (enc d)

/-- The invariant. -/
def PersistInv (file : FileName) (enc : GobData → List UInt8) (init : Option (List UInt8)) (σ : PersistState)
    (s : Option MemStore × Option MemStore) : Prop :=
  FileInv file enc init σ.files s.2 ∧ ∀ p, σ.proc = some p → PCInv file enc σ.files s.1 p.2

theorem FileInv.of_get {init : Option (List UInt8)} {fs fs' : AMap FileName (List UInt8)}
    {o : Option MemStore} (h : FileInv file enc init fs o) (e : fs'.get file = fs.get file) :
    FileInv file enc init fs' o := by
  cases o with
  | none => exact e.trans h
  | some ms =>
    obtain ⟨d, h1, h2⟩ := h
    exact ⟨d, h1, e.trans h2⟩

theorem PersistInv.step {init : Option (List UInt8)} {σ σ' : PersistState} {ev : PersistEvent}
    {s : Option MemStore × Option MemStore} (I : PersistInv file enc init σ s) (st : PersistStep file enc dec σ ev σ') :
    PersistInv file enc init σ' (snapshotStep s ev) := by
  obtain ⟨F, P⟩ := I
  cases st with
  | startEmpty h => exact ⟨F, by rintro p ⟨⟩; trivial⟩
  | startRead h1 h2 => exact ⟨F, by rintro p ⟨⟩; trivial⟩
  | @call fs ms ms' pc op h1 h2 => exact ⟨F, by rintro p ⟨⟩; exact P (ms, pc) rfl⟩
  | tempFail => exact ⟨F, by rintro p ⟨⟩; trivial⟩
  | temp h1 h2 =>
    exact ⟨F.of_get (AMap.get_set_ne _ _ h2), by rintro p ⟨⟩; exact ⟨h2, AMap.get_set_self _ _ _⟩⟩
  | @write fs ms tmp d h =>
    obtain ⟨h1, h2⟩ := P _ rfl
    exact ⟨F, by rintro p ⟨⟩; exact ⟨h1, [], h2, ms, d, rfl, h, rfl⟩⟩
  | @chunk fs ms tmp now rest old h =>
    obtain ⟨h1, old', h2, h3⟩ := P _ rfl
    have : old' = old := by
      rw [h] at h2
      injection h2 with h2
      exact h2.symm
    subst this
    refine ⟨F.of_get (AMap.get_set_ne _ _ h1), ?_⟩
    rintro p ⟨⟩
    exact ⟨h1, old' ++ now, AMap.get_set_self _ _ _, by rw [List.append_assoc]; exact h3⟩
  | writeFail => exact ⟨F, by rintro p ⟨⟩; trivial⟩
  | writeDone =>
    obtain ⟨h1, old, h2, h3⟩ := P _ rfl
    exact ⟨F, by rintro p ⟨⟩; exact ⟨h1, old, h2, by rw [List.append_nil] at h3; exact h3⟩⟩
  | @close fs ms tmp => exact ⟨F, by rintro p ⟨⟩; exact P (ms, .written tmp) rfl⟩
  | closeFail => exact ⟨F, by rintro p ⟨⟩; trivial⟩
  | @rename fs ms tmp b h =>
    obtain ⟨h1, b', h2, ms0, d, h3, h4, h5⟩ := P _ rfl
    rw [h] at h2
    injection h2 with h2
    subst h2
    refine ⟨?_, by rintro p ⟨⟩; trivial⟩
    show FileInv file enc init _ s.1
    rw [h3]
    exact ⟨d, h4, by rw [← h5]; exact AMap.get_set_self _ _ _⟩
  | renameFail => exact ⟨F, by rintro p ⟨⟩; trivial⟩
  | crash => exact ⟨F, by rintro p ⟨⟩⟩

theorem PersistRuns.inv {fs : AMap FileName (List UInt8)} {evs : List PersistEvent} {σ : PersistState}
    (h : PersistRuns file enc dec ⟨fs, none⟩ evs σ) :
    PersistInv file enc (fs.get file) σ (evs.foldl snapshotStep (none, none)) := by
  induction h with
  | refl => exact ⟨rfl, by rintro p ⟨⟩⟩
  | step h1 h2 ih =>
    rw [List.foldl_append]
    exact ih.step h2

/-- Everything that is ever in the file decodes to what a reachable store wrote. -/
def GoodFile (enc : GobData → List UInt8) (o : Option (List UInt8)) : Prop :=
  ∀ b, o = some b → ∃ ms d, MemStore.Reachable ms ∧ ms.Writes d ∧ b = enc d

/-- Stores stay reachable. -/
def ReachInv (σ : PersistState) (s : Option MemStore × Option MemStore) : Prop :=
  (∀ ms pc, σ.proc = some (ms, pc) → MemStore.Reachable ms) ∧ (∀ ms, s.1 = some ms → MemStore.Reachable ms) ∧
  (∀ ms, s.2 = some ms → MemStore.Reachable ms)

theorem PersistRuns.reach (hdec : ∀ d, dec (enc d) = some d) {fs : AMap FileName (List UInt8)}
    (hf : GoodFile enc (fs.get file)) {evs : List PersistEvent} {σ : PersistState}
    (h : PersistRuns file enc dec ⟨fs, none⟩ evs σ) :
    ReachInv σ (evs.foldl snapshotStep (none, none)) ∧ GoodFile enc (σ.files.get file) := by
  induction h with
  | refl =>
    exact ⟨⟨by rintro p pc ⟨⟩, by rintro p ⟨⟩, by rintro p ⟨⟩⟩, hf⟩
  | @step evs σ1 ev σ2 h1 h2 ih =>
    obtain ⟨⟨R1, R2, R3⟩, G⟩ := ih
    have hrun : PersistRuns file enc dec ⟨fs, none⟩ (evs ++ [ev]) σ2 := .step h1 h2
    have F := hrun.inv.1
    rw [List.foldl_append] at F ⊢
    have R : ReachInv σ2 (snapshotStep (evs.foldl snapshotStep (none, none)) ev) := by
      generalize evs.foldl snapshotStep (none, none) = s at R2 R3
      cases h2 with
      | startEmpty h => exact ⟨by rintro p pc ⟨⟩; exact .new, R2, R3⟩
      | startRead k1 k2 =>
        refine ⟨?_, R2, R3⟩
        rintro p pc ⟨⟩
        obtain ⟨ms, d, g1, g2, rfl⟩ := G _ k1
        rw [hdec] at k2
        injection k2 with k2
        subst k2
        exact .readFrom g1 g2 .new
      | call k1 k2 => exact ⟨by rintro p pc ⟨⟩; exact .step _ (R1 _ _ rfl) k1, R2, R3⟩
      | tempFail => exact ⟨by rintro p pc ⟨⟩; exact R1 _ _ rfl, R2, R3⟩
      | temp h1 h2 => exact ⟨by rintro p pc ⟨⟩; exact R1 _ _ rfl, R2, R3⟩
      | write h => exact ⟨by rintro p pc ⟨⟩; exact R1 _ _ rfl, by rintro ms ⟨⟩; exact R1 _ _ rfl, R3⟩
      | chunk h => exact ⟨by rintro p pc ⟨⟩; exact R1 _ _ rfl, R2, R3⟩
      | writeFail => exact ⟨by rintro p pc ⟨⟩; exact R1 _ _ rfl, R2, R3⟩
      | writeDone => exact ⟨by rintro p pc ⟨⟩; exact R1 _ _ rfl, R2, R3⟩
      | close => exact ⟨by rintro p pc ⟨⟩; exact R1 _ _ rfl, R2, R3⟩
      | closeFail => exact ⟨by rintro p pc ⟨⟩; exact R1 _ _ rfl, R2, R3⟩
      | rename h => exact ⟨by rintro p pc ⟨⟩; exact R1 _ _ rfl, R2, R2⟩
      | renameFail => exact ⟨by rintro p pc ⟨⟩; exact R1 _ _ rfl, R2, R3⟩
      | crash => exact ⟨by rintro p pc ⟨⟩, R2, R3⟩
    refine ⟨R, ?_⟩
    change FileInv file enc (fs.get file) σ2.files (snapshotStep (evs.foldl snapshotStep (none, none)) ev).2 at F
    cases hs : (snapshotStep (evs.foldl snapshotStep (none, none)) ev).2 with
    | none =>
      rw [hs] at F
      intro b hb
      exact hf b (by rw [← F]; exact hb)
    | some ms =>
      rw [hs] at F
      obtain ⟨d, f1, f2⟩ := F
      intro b hb
      rw [f2] at hb
      injection hb with hb
      exact ⟨ms, d, R.2.2 ms hs, f1, hb.symm⟩

theorem lastSnapshot_mem {evs : List PersistEvent} {ms : MemStore} (h : lastSnapshot evs = some ms) :
    PersistEvent.write ms ∈ evs := by
  have key : ∀ (evs : List PersistEvent) (s : Option MemStore × Option MemStore) (ms : MemStore),
      ((evs.foldl snapshotStep s).1 = some ms → PersistEvent.write ms ∈ evs ∨ s.1 = some ms) ∧
      ((evs.foldl snapshotStep s).2 = some ms → PersistEvent.write ms ∈ evs ∨ s.1 = some ms ∨ s.2 = some ms) := by
    intro evs
    induction evs with
    | nil => intro s ms; exact ⟨fun h => Or.inr h, fun h => Or.inr (Or.inr h)⟩
    | cons ev evs ih =>
      intro s ms
      obtain ⟨i1, i2⟩ := ih (snapshotStep s ev) ms
      rw [List.foldl_cons]
      refine ⟨fun h => ?_, fun h => ?_⟩
      · rcases i1 h with h | h
        · exact Or.inl (by simp [h])
        · cases ev with
          | write ms' => injection h with h; subst h; exact Or.inl (by simp)
          | _ => exact Or.inr h
      · rcases i2 h with h | h | h
        · exact Or.inl (by simp [h])
        · cases ev with
          | write ms' => injection h with h; subst h; exact Or.inl (by simp)
          | _ => exact Or.inr (Or.inl h)
        · cases ev with
          | rename => exact Or.inr (Or.inl h)
          | _ => exact Or.inr (Or.inr h)
  rcases (key evs (none, none) ms).2 h with h | h | h
  · exact h
  · cases h
  · cases h

/-- The store of the running process is the started one after the calls since the start. -/
theorem PersistRuns.calls {fs : AMap FileName (List UInt8)} {evs : List PersistEvent} {σ : PersistState}
    (h : PersistRuns file enc dec ⟨fs, none⟩ evs σ) :
    ∀ ms pc, σ.proc = some (ms, pc) → ∃ ms0, (ms0 = MemStore.new ∨ ∃ d, ms0 = (MemStore.new.readFrom (some d)).1) ∧
      ms0.run (callsSinceStart evs) = some ms := by
  induction h with
  | refl => rintro p pc ⟨⟩
  | @step evs σ1 ev σ2 h1 h2 ih =>
    unfold callsSinceStart at ih ⊢
    rw [List.foldl_append]
    generalize evs.foldl callsStep [] = cs at ih
    cases h2 with
    | startEmpty h => rintro p pc ⟨⟩; exact ⟨_, Or.inl rfl, rfl⟩
    | startRead h1 h2 => rintro p pc ⟨⟩; exact ⟨_, Or.inr ⟨_, rfl⟩, rfl⟩
    | @call fs ms ms' pc op k1 k2 =>
      rintro p pc ⟨⟩
      obtain ⟨ms0, e1, e2⟩ := ih _ _ rfl
      refine ⟨ms0, e1, ?_⟩
      show ms0.run (cs ++ [op]) = some ms'
      rw [run_append, e2]
      simp [MemStore.run, k1]
    | tempFail => rintro p pc ⟨⟩; exact ih _ _ rfl
    | temp h1 h2 => rintro p pc ⟨⟩; exact ih _ _ rfl
    | write h => rintro p pc ⟨⟩; exact ih _ _ rfl
    | chunk h => rintro p pc ⟨⟩; exact ih _ _ rfl
    | writeFail => rintro p pc ⟨⟩; exact ih _ _ rfl
    | writeDone => rintro p pc ⟨⟩; exact ih _ _ rfl
    | close => rintro p pc ⟨⟩; exact ih _ _ rfl
    | closeFail => rintro p pc ⟨⟩; exact ih _ _ rfl
    | rename h => rintro p pc ⟨⟩; exact ih _ _ rfl
    | renameFail => rintro p pc ⟨⟩; exact ih _ _ rfl
    | crash => rintro p pc ⟨⟩

/-- A `Write` event shows the store of the process at that time. -/
theorem PersistRuns.write_split {σ0 : PersistState} {evs : List PersistEvent} {σ : PersistState}
    (h : PersistRuns file enc dec σ0 evs σ) {e1 e2 : List PersistEvent} {ms : MemStore}
    (he : evs = e1 ++ PersistEvent.write ms :: e2) :
    ∃ σ1 tmp, PersistRuns file enc dec σ0 e1 σ1 ∧ σ1.proc = some (ms, .created tmp) := by
  induction h generalizing e2 with
  | refl => simp at he
  | @step evs σ1 ev σ2 h1 h2 ih =>
    rcases List.eq_nil_or_concat e2 with rfl | ⟨l, x, rfl⟩
    · have := List.append_inj' he rfl
      obtain ⟨rfl, h⟩ := this
      injection h with h
      subst h
      cases h2 with
      | write hw => exact ⟨_, _, h1, rfl⟩
    · rw [List.concat_eq_append, ← List.cons_append, ← List.append_assoc] at he
      exact ih (List.append_inj' he rfl).1

end

end Appdash
