import Verif.Proofs.PersistEvery
import Verif.Proofs.Serve
import Verif.Properties.Persist
import Verif.Spec.PersistCrash

/-! # What a snapshot holds survives crashes: proofs -/

namespace Appdash

open Spec

theorem SameAnnotation.trans_list {a b c : List Annotation} (h : List.Forall₂ SameAnnotation a b) (h' : List.Forall₂ SameAnnotation b c) :
    List.Forall₂ SameAnnotation a c := by
  induction h generalizing c with
  | nil => cases h'; exact .nil
  | cons h1 _ ih =>
    cases h' with
    | cons k1 k2 => exact .cons ⟨h1.1.trans k1.1, h1.2.trans k1.2⟩ (ih k2)

mutual
theorem SameTree.trans : ∀ {a b c : Tree}, SameTree a b → SameTree b c → SameTree a c
  | _, _, _, .node h1 h2 h3, .node k1 k2 k3 => .node (h1.trans k1) (SameAnnotation.trans_list h2 k2) (SameTrees.trans h3 k3)
theorem SameTrees.trans : ∀ {a b c : List Tree}, SameTrees a b → SameTrees b c → SameTrees a c
  | _, _, _, .nil, .nil => .nil
  | _, _, _, .cons h1 h2, .cons k1 k2 => .cons (SameTree.trans h1 k1) (SameTrees.trans h2 k2)
end

theorem SameResult.trans {a b c : TraceResult} (h : SameResult a b) (h' : SameResult b c) : SameResult a c := by
  cases h with
  | notFound => exact h'
  | found h =>
    cases h' with
    | found h' => exact .found (SameTree.trans h h')

theorem MemStore.Reachable.view_finite {ms : MemStore} (h : ms.Reachable) (t : ID) {d : GobData} (hw : ms.Writes d) :
    ms.view t ≠ .infinite := by
  rcases readFrom_view h.sound hw MemStore.new t with ⟨h1, -⟩ | ⟨tr, h1, -⟩ <;> rw [h1] <;> exact fun h => by cases h

/-- A call that does not concern a trace leaves it alone. -/
theorem step_view_unconcerned {ms ms' : MemStore} (R : ms.Reachable) {op : StoreOp} {t : ID} (e : ms.step op = some ms')
    (hn : ¬ Concerns t op) {r : TraceResult} (h : SameResult r (ms.view t)) : SameResult r (ms'.view t) := by
  have key : ms'.view t = ms.view t := by
    cases hv : ms.view t with
    | found tr =>
      refine step_view_other R.sound.loose e ?_ ?_ hv
      · rintro ⟨id, as, h1, h2⟩
        rw [List.mem_singleton] at h1
        subst h1
        exact hn h2
      · rintro ⟨ids, h1, h2⟩
        rw [List.mem_singleton] at h1
        subst h1
        exact hn h2
    | notFound =>
      apply notFound_of_trace
      have ht := trace_of_notFound hv
      cases op with
      | collect id as =>
        obtain ⟨ms1, e1, -, O⟩ := collect_loose R.sound.loose id as
        have e' : ms.collect id as = some ms' := e
        rw [e'] at e1
        injection e1 with e1
        subst e1
        rw [O.trace t (fun h => hn h.symm)]
        exact ht
      | delete ids =>
        have e' : ms.delete ids = ms' := by injection e
        subst e'
        obtain ⟨-, -, h3, -⟩ := delete_get ids ms t
        rw [h3, if_neg (show t ∉ ids from hn)]
        exact ht
    | infinite => rw [hv] at h; cases h
  rw [key]
  exact h

section
variable {file : FileName} {enc : GobData → List UInt8} {dec : List UInt8 → Option GobData}

theorem PersistRuns.snoc_inv {σ0 σ : PersistState} {evs : List PersistEvent} {ev : PersistEvent}
    (h : PersistRuns file enc dec σ0 (evs ++ [ev]) σ) :
    ∃ σ', PersistRuns file enc dec σ0 evs σ' ∧ PersistStep file enc dec σ' ev σ := by
  generalize hl : evs ++ [ev] = l at h
  cases h with
  | refl => simp at hl
  | step h1 h2 =>
    obtain ⟨e1, e2⟩ := List.append_inj' hl rfl
    injection e2 with e2
    subst e1
    subst e2
    exact ⟨_, h1, h2⟩

/-- The process and the last store that was written show trace `t` as `r`. -/
def Shows (t : ID) (r : TraceResult) (σ : PersistState) (s : Option MemStore × Option MemStore) : Prop :=
  (∀ ms pc, σ.proc = some (ms, pc) → SameResult r (ms.view t)) ∧ ∃ m, s.1 = some m ∧ SameResult r (m.view t)

theorem Shows.step {t : ID} {r : TraceResult} {σ σ' : PersistState} {ev : PersistEvent} {s : Option MemStore × Option MemStore}
    (I : Shows t r σ s) (hr : ∀ ms pc, σ.proc = some (ms, pc) → ms.Reachable) (st : PersistStep file enc dec σ ev σ')
    (hs : ev ≠ .start) (hn : ∀ op, ev = .call op → ¬ Concerns t op) : Shows t r σ' (snapshotStep s ev) := by
  obtain ⟨P, m, M1, M2⟩ := I
  cases st with
  | startEmpty h => exact absurd rfl hs
  | startRead h1 h2 => exact absurd rfl hs
  | call h1 h2 =>
    refine ⟨?_, m, M1, M2⟩
    rintro p pc ⟨⟩
    exact step_view_unconcerned (hr _ _ rfl) h1 (hn _ rfl) (P _ _ rfl)
  | tempFail => exact ⟨by rintro p pc ⟨⟩; exact P _ _ rfl, m, M1, M2⟩
  | temp h1 h2 => exact ⟨by rintro p pc ⟨⟩; exact P _ _ rfl, m, M1, M2⟩
  | write h => exact ⟨by rintro p pc ⟨⟩; exact P _ _ rfl, _, rfl, P _ _ rfl⟩
  | chunk h => exact ⟨by rintro p pc ⟨⟩; exact P _ _ rfl, m, M1, M2⟩
  | writeFail => exact ⟨by rintro p pc ⟨⟩; exact P _ _ rfl, m, M1, M2⟩
  | writeDone => exact ⟨by rintro p pc ⟨⟩; exact P _ _ rfl, m, M1, M2⟩
  | close => exact ⟨by rintro p pc ⟨⟩; exact P _ _ rfl, m, M1, M2⟩
  | closeFail => exact ⟨by rintro p pc ⟨⟩; exact P _ _ rfl, m, M1, M2⟩
  | rename h => exact ⟨by rintro p pc ⟨⟩; exact P _ _ rfl, m, M1, M2⟩
  | renameFail => exact ⟨by rintro p pc ⟨⟩; exact P _ _ rfl, m, M1, M2⟩
  | crash => exact ⟨by rintro p pc ⟨⟩, m, M1, M2⟩

/-- From the call of `Write` on, as long as the process lives. -/
theorem shows_after_write (hdec : ∀ d, dec (enc d) = some d) {fs : AMap FileName (List UInt8)} (hf : GoodFile enc (fs.get file))
    {e1 : List PersistEvent} {ms : MemStore} {t : ID} (e2 : List PersistEvent) : ∀ {σ : PersistState},
    PersistRuns file enc dec ⟨fs, none⟩ (e1 ++ .write ms :: e2) σ → .crash ∉ e2 → Untouched t e2 →
    σ.proc ≠ none ∧ Shows t (ms.view t) σ ((e1 ++ .write ms :: e2).foldl snapshotStep (none, none)) := by
  induction e2 using List.reverseRecOn with
  | nil =>
    intro σ h _ _
    obtain ⟨σ', h1, h2⟩ := h.snoc_inv
    rw [List.foldl_append]
    cases h2 with
    | write hw =>
      have hr := (h1.reach hdec hf).1.1 _ _ rfl
      have same := SameResult.refl (ms.view t) (hr.view_finite t hw)
      exact ⟨by simp, by rintro p pc ⟨⟩; exact same, ms, rfl, same⟩
  | append_singleton e2 ev ih =>
    intro σ h hc hu
    have h' : PersistRuns file enc dec ⟨fs, none⟩ ((e1 ++ .write ms :: e2) ++ [ev]) σ := by simpa using h
    obtain ⟨σ', h1, h2⟩ := h'.snoc_inv
    obtain ⟨a, b⟩ := ih h1 (fun hm => hc (by simp [hm])) (fun op hm => hu op (by simp [hm]))
    have hs : ev ≠ .start := by
      rintro rfl
      cases h2 <;> exact a rfl
    have e : e1 ++ PersistEvent.write ms :: (e2 ++ [ev]) = (e1 ++ .write ms :: e2) ++ [ev] := by simp
    rw [e, List.foldl_append]
    refine ⟨?_, b.step (fun ms pc hp => (h1.reach hdec hf).1.1 ms pc hp) h2 hs (fun op he => hu op (by simp [he]))⟩
    have hcr : ev ≠ .crash := by
      rintro rfl
      exact hc (by simp)
    cases h2 <;> first | exact absurd rfl hcr | simp

/-- From the rename on, for ever. -/
theorem shows_after_rename (hdec : ∀ d, dec (enc d) = some d) {fs : AMap FileName (List UInt8)} (hf : GoodFile enc (fs.get file))
    {e1 e2 : List PersistEvent} {ms : MemStore} {t : ID} (hc : .crash ∉ e2) (hu2 : Untouched t e2) (e3 : List PersistEvent) :
    ∀ {σ : PersistState}, PersistRuns file enc dec ⟨fs, none⟩ (e1 ++ .write ms :: e2 ++ .rename :: e3) σ → Untouched t e3 →
    Shows t (ms.view t) σ ((e1 ++ .write ms :: e2 ++ .rename :: e3).foldl snapshotStep (none, none)) ∧
    ∃ m, lastSnapshot (e1 ++ .write ms :: e2 ++ .rename :: e3) = some m ∧ SameResult (ms.view t) (m.view t) := by
  induction e3 using List.reverseRecOn with
  | nil =>
    intro σ h _
    obtain ⟨σ', h1, h2⟩ := h.snoc_inv
    obtain ⟨-, b⟩ := shows_after_write hdec hf e2 h1 hc hu2
    have b' := b.step (fun ms pc hp => (h1.reach hdec hf).1.1 ms pc hp) h2 (by simp) (by simp)
    unfold lastSnapshot
    rw [List.foldl_append]
    exact ⟨b', b.2⟩
  | append_singleton e3 ev ih =>
    intro σ h hu
    have h' : PersistRuns file enc dec ⟨fs, none⟩ ((e1 ++ .write ms :: e2 ++ .rename :: e3) ++ [ev]) σ := by simpa using h
    obtain ⟨σ', h1, h2⟩ := h'.snoc_inv
    obtain ⟨b, m, m1, m2⟩ := ih h1 (fun op hm => hu op (by simp [hm]))
    have e : e1 ++ PersistEvent.write ms :: e2 ++ .rename :: (e3 ++ [ev]) = (e1 ++ .write ms :: e2 ++ .rename :: e3) ++ [ev] := by simp
    have F := h1.inv.1
    have R := h1.reach hdec hf
    unfold lastSnapshot at m1 ⊢
    rw [e, List.foldl_append]
    generalize (e1 ++ PersistEvent.write ms :: e2 ++ .rename :: e3).foldl snapshotStep (none, none) = s at b m1 F R ⊢
    refine ⟨?_, ?_⟩
    · by_cases hs : ev = .start
      · subst hs
        rw [m1] at F
        obtain ⟨d, d1, d2⟩ := F
        refine ⟨?_, b.2⟩
        cases h2 with
        | startEmpty k => exact absurd (d2.symm.trans k) (by simp)
        | startRead k1 k2 =>
          rintro p pc ⟨⟩
          have k1 := Option.some.inj (d2.symm.trans k1)
          subst k1
          rw [hdec] at k2
          injection k2 with k2
          subst k2
          exact SameResult.trans m2 (persist_round_trip (R.1.2.2 m m1) d1 _ t)
      · exact b.step (fun ms pc hp => R.1.1 ms pc hp) h2 hs (fun op he => hu op (by simp [he]))
    · show ∃ m, (snapshotStep s ev).2 = some m ∧ _
      cases ev with
      | rename => exact b.2
      | _ => exact ⟨m, m1, m2⟩

end

end Appdash
