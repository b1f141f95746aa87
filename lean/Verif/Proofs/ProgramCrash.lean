import Verif.Proofs.PersistCrash
import Verif.Properties.EndToEnd

/-! # A program's trace survives the crashes of the server: proofs -/

namespace Appdash

open Spec

/-! ## Reading annotations in which empty values have become nil -/

theorem schemas_same {as bs : List Annotation} (h : List.Forall₂ SameAnnotation as bs) : schemas as = schemas bs := by
  induction h with
  | nil => rfl
  | cons h1 _ ih => simp only [schemas, h1.1, ih]

theorem stringMap_same {as bs : List Annotation} (h : List.Forall₂ SameAnnotation as bs) : stringMap as = stringMap bs := by
  have : ∀ m : AMap Bytes Bytes, as.foldl (fun m a => AMap.set m a.key a.valueString) m =
      bs.foldl (fun m a => AMap.set m a.key a.valueString) m := by
    induction h with
    | nil => intro m; rfl
    | cons h1 _ ih =>
      intro m
      have e : Annotation.valueString _ = Annotation.valueString _ := h1.2
      rw [List.foldl_cons, List.foldl_cons, h1.1, e]
      exact ih _
  exact this []

theorem unmarshal_same {E : EventType} (hE : E.unmarshaler = none) {as bs : List Annotation} (h : List.Forall₂ SameAnnotation as bs)
    (v : GVal) : unmarshalEvent E as v = unmarshalEvent E bs v := by
  simp only [unmarshalEvent, hE, schemas_same h, stringMap_same h]

theorem unmarshalEvents_same {reg : Registry} (hreg : ∀ s E, AMap.get reg s = some E → E.unmarshaler = none)
    {as bs : List Annotation} (h : List.Forall₂ SameAnnotation as bs) : unmarshalEvents reg as = unmarshalEvents reg bs := by
  have loop : ∀ ss evs, unmarshalLoop reg as ss evs = unmarshalLoop reg bs ss evs := by
    intro ss
    induction ss with
    | nil => intro evs; rfl
    | cons s ss ih =>
      intro evs
      simp only [unmarshalLoop]
      cases hg : AMap.get reg s with
      | none => exact ih evs
      | some E =>
        simp only [unmarshal_same (hreg s E hg) h, ih]
  rw [unmarshalEvents, unmarshalEvents, schemas_same h]
  exact loop _ _

mutual
theorem SameTree.shape (f : SpanID → List Annotation) : ∀ {a b : Tree}, SameTree a b → reannotate f a = reannotate f b
  | .node s ts, .node s' us, .node h1 _ h3 => by
    simp only [reannotate, h1, SameTrees.shape f h3]
theorem SameTrees.shape (f : SpanID → List Annotation) : ∀ {a b : List Tree}, SameTrees a b → reannotateList f a = reannotateList f b
  | _, _, .nil => rfl
  | _, _, .cons h1 h2 => by simp only [reannotateList, SameTree.shape f h1, SameTrees.shape f h2]
end

mutual
theorem SameTree.spans : ∀ {a b : Tree}, SameTree a b → ∀ sp ∈ b.spans, ∃ sp' ∈ a.spans, sp'.id = sp.id ∧
    List.Forall₂ SameAnnotation sp'.annotations sp.annotations
  | .node s ts, .node s' us, .node h1 h2 h3, sp, hsp => by
    simp only [Tree.spans, List.mem_cons] at hsp ⊢
    rcases hsp with rfl | hsp
    · exact ⟨s, .inl rfl, h1, h2⟩
    · obtain ⟨sp', k1, k2⟩ := SameTrees.spans h3 sp hsp
      exact ⟨sp', .inr k1, k2⟩
theorem SameTrees.spans : ∀ {a b : List Tree}, SameTrees a b → ∀ sp ∈ Tree.spansList b, ∃ sp' ∈ Tree.spansList a, sp'.id = sp.id ∧
    List.Forall₂ SameAnnotation sp'.annotations sp.annotations
  | _, _, .nil, sp, hsp => by simp [Tree.spansList] at hsp
  | _, _, .cons h1 h2, sp, hsp => by
    simp only [Tree.spansList, List.mem_append] at hsp ⊢
    rcases hsp with hsp | hsp
    · obtain ⟨sp', k1, k2⟩ := SameTree.spans h1 sp hsp
      exact ⟨sp', .inl k1, k2⟩
    · obtain ⟨sp', k1, k2⟩ := SameTrees.spans h2 sp hsp
      exact ⟨sp', .inr k1, k2⟩
end

/-! ## A trace that is not in the store yet -/

/-- A trace that is not in a reachable store is collected there as in an empty one. -/
theorem absent_run {ms0 ms : MemStore} (R : ms0.Reachable) {t : ID} (ht : ms0.view t = .notFound) {ops : List StoreOp}
    (h : ms0.run ops = some ms) : ∃ ms1, MemStore.new.run ops = some ms1 ∧ ms.view t = ms1.view t := by
  obtain ⟨ms1, h1, -⟩ := run_loose new_loose ops
  obtain ⟨ms2, e2, S⟩ := run_simT R.sound.loose (R.absent ht) rfl ops
  rw [h] at e2
  injection e2 with e2
  subst e2
  exact ⟨ms1, h1, view_simT S (run_state h1 t).1⟩

section
variable {file : FileName} {enc : GobData → List UInt8} {dec : List UInt8 → Option GobData}

/-- Neither the process, nor the store written last, nor the file has the trace. -/
def Lacking (file : FileName) (enc : GobData → List UInt8) (t : ID) (σ : PersistState) (s : Option MemStore × Option MemStore) : Prop :=
  (∀ ms pc, σ.proc = some (ms, pc) → ms.view t = .notFound) ∧ (∀ m, s.1 = some m → m.view t = .notFound) ∧
  (∀ m, s.2 = some m → m.view t = .notFound)

theorem notFound_of_same {r : TraceResult} (h : SameResult .notFound r) : r = .notFound := by cases h; rfl

theorem lacking_run (hdec : ∀ d, dec (enc d) = some d) {fs : AMap FileName (List UInt8)} {t : ID}
    (hf : ∀ b, fs.get file = some b → ∃ ms d, MemStore.Reachable ms ∧ ms.Writes d ∧ b = enc d ∧ ms.view t = .notFound)
    {evs : List PersistEvent} {σ : PersistState} (h : PersistRuns file enc dec ⟨fs, none⟩ evs σ) (hu : Untouched t evs) :
    Lacking file enc t σ (evs.foldl snapshotStep (none, none)) := by
  have hf' : GoodFile enc (fs.get file) := fun b hb => by
    obtain ⟨ms, d, h1, h2, h3, -⟩ := hf b hb
    exact ⟨ms, d, h1, h2, h3⟩
  induction h with
  | refl => exact ⟨by rintro p pc ⟨⟩, by rintro p ⟨⟩, by rintro p ⟨⟩⟩
  | @step evs σ1 ev σ2 h1 h2 ih =>
    obtain ⟨P, Q, S⟩ := ih fun op hm => hu op (by simp [hm])
    have F := h1.inv.1
    have R := h1.reach hdec hf'
    rw [List.foldl_append]
    generalize evs.foldl snapshotStep (none, none) = s at P Q S F R ⊢
    cases h2 with
    | startEmpty k => exact ⟨by rintro p pc ⟨⟩; rfl, Q, S⟩
    | @startRead fs' b d k1 k2 =>
      refine ⟨?_, Q, S⟩
      rintro p pc ⟨⟩
      have : ∃ m d', MemStore.Reachable m ∧ m.Writes d' ∧ b = enc d' ∧ m.view t = .notFound := by
        cases hs : s.2 with
        | none =>
          rw [hs] at F
          have F : fs'.get file = fs.get file := F
          exact hf b (by rw [← F]; exact k1)
        | some m =>
          rw [hs] at F
          obtain ⟨d', f1, f2⟩ := F
          have f2 : fs'.get file = some (enc d') := f2
          exact ⟨m, d', R.1.2.2 m hs, f1, Option.some.inj (k1.symm.trans f2), S m hs⟩
      obtain ⟨m, d', m1, m2, rfl, m4⟩ := this
      rw [hdec] at k2
      injection k2 with k2
      subst k2
      have := persist_round_trip m1 m2 MemStore.new t
      rw [m4] at this
      exact notFound_of_same this
    | @call fs ms ms' pc op k1 k2 =>
      refine ⟨?_, Q, S⟩
      rintro p pc ⟨⟩
      have := P _ _ rfl
      have hn := hu op (by simp)
      exact notFound_of_same (step_view_unconcerned (R.1.1 _ _ rfl) k1 hn (by rw [this]; exact .notFound))
    | tempFail => exact ⟨by rintro p pc ⟨⟩; exact P _ _ rfl, Q, S⟩
    | temp h1 h2 => exact ⟨by rintro p pc ⟨⟩; exact P _ _ rfl, Q, S⟩
    | write h => exact ⟨by rintro p pc ⟨⟩; exact P _ _ rfl, by rintro m ⟨⟩; exact P _ _ rfl, S⟩
    | chunk h => exact ⟨by rintro p pc ⟨⟩; exact P _ _ rfl, Q, S⟩
    | writeFail => exact ⟨by rintro p pc ⟨⟩; exact P _ _ rfl, Q, S⟩
    | writeDone => exact ⟨by rintro p pc ⟨⟩; exact P _ _ rfl, Q, S⟩
    | close => exact ⟨by rintro p pc ⟨⟩; exact P _ _ rfl, Q, S⟩
    | closeFail => exact ⟨by rintro p pc ⟨⟩; exact P _ _ rfl, Q, S⟩
    | rename h => exact ⟨by rintro p pc ⟨⟩; exact P _ _ rfl, Q, Q⟩
    | renameFail => exact ⟨by rintro p pc ⟨⟩; exact P _ _ rfl, Q, S⟩
    | crash => exact ⟨by rintro p pc ⟨⟩, Q, S⟩

/-- The process that was started at the end of `e0` has made the calls since. -/
theorem started_run {σ0 : PersistState} {e0 : List PersistEvent} (e1 : List PersistEvent) (hs : .start ∉ e1) :
    ∀ {σ : PersistState} {ms : MemStore} {pc : PersistPC}, PersistRuns file enc dec σ0 (e0 ++ .start :: e1) σ → σ.proc = some (ms, pc) →
    ∃ σ1 ms0, PersistRuns file enc dec σ0 (e0 ++ [.start]) σ1 ∧ σ1.proc = some (ms0, .idle) ∧ ms0.run (storeCalls e1) = some ms := by
  induction e1 using List.reverseRecOn with
  | nil =>
    intro σ ms pc h hp
    refine ⟨σ, ms, h, ?_, rfl⟩
    obtain ⟨σ', -, h2⟩ := h.snoc_inv
    cases h2 with
    | startEmpty _ => cases hp; rfl
    | startRead _ _ => cases hp; rfl
  | append_singleton e1 ev ih =>
    intro σ ms pc h hp
    have h' : PersistRuns file enc dec σ0 ((e0 ++ .start :: e1) ++ [ev]) σ := by simpa using h
    obtain ⟨σ', h1, h2⟩ := h'.snoc_inv
    have ih := fun {ms pc} => @ih (fun hm => hs (by simp [hm])) σ' ms pc h1
    have e : storeCalls (e1 ++ [ev]) = storeCalls e1 ++ storeCalls [ev] := by simp [storeCalls]
    rw [e]
    cases h2 with
    | startEmpty _ => exact absurd (by simp) hs
    | startRead _ _ => exact absurd (by simp) hs
    | call k1 k2 =>
      cases hp
      obtain ⟨σ1, ms0, a1, a2, a3⟩ := ih rfl
      refine ⟨σ1, ms0, a1, a2, ?_⟩
      rw [run_append, a3]
      simp [storeCalls, MemStore.run, k1]
    | crash => cases hp
    | _ =>
      cases hp
      obtain ⟨σ1, ms0, a1, a2, a3⟩ := ih rfl
      exact ⟨σ1, ms0, a1, a2, by simpa [storeCalls] using a3⟩

end

end Appdash
