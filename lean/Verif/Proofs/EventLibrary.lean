import Verif.Proofs.EventSpan

/-! # The events that the library itself defines -/

namespace Appdash

/-- Some type of the list is a scalar. -/
def anyScalar : List GType → Bool
  | [] => false
  | .scalar _ _ :: _ => true
  | _ :: ts => anyScalar ts

mutual

/-- The type has no sequences, and a scalar field in every struct. -/
def GType.solid : GType → Bool
  | .scalar _ _ => true
  | .map _ => true
  | .struct _ ts => anyScalar ts && solidAll ts
  | _ => false

/-- All types of the list are solid. -/
def solidAll : List GType → Bool
  | [] => true
  | t :: ts => t.solid && solidAll ts

end

theorem anyScalar_leaf : ∀ (ts : List GType) (vs : List GVal), anyScalar ts = true → holdsAll ts vs = true →
    anyLeaf vs = true
  | [], _, h, _ => by simp [anyScalar] at h
  | t :: ts, [], _, hh => by simp [holdsAll] at hh
  | t :: ts, v :: vs, h, hh => by
    simp only [holdsAll, Bool.and_eq_true] at hh
    simp only [anyLeaf, Bool.or_eq_true]
    cases t with
    | scalar d s =>
      left
      cases v <;> simp [GType.holds] at hh <;> rfl
    | struct ns us => right; exact anyScalar_leaf ts vs (by simpa [anyScalar] using h) hh.2
    | map e => right; exact anyScalar_leaf ts vs (by simpa [anyScalar] using h) hh.2
    | slice e => right; exact anyScalar_leaf ts vs (by simpa [anyScalar] using h) hh.2
    | array n e => right; exact anyScalar_leaf ts vs (by simpa [anyScalar] using h) hh.2

mutual

theorem solid_full : ∀ (t : GType) (v : GVal), t.solid = true → t.holds v = true →
    v.full = true ∧ (v.isStruct = true → v.hasLeaf = true)
  | .scalar d s, v, _, hh => by cases v <;> simp [GType.holds] at hh <;> simp [GVal.full, GVal.isStruct]
  | .map e, v, _, hh => by cases v <;> simp [GType.holds] at hh <;> simp [GVal.full, GVal.isStruct]
  | .slice e, v, h, _ => by simp [GType.solid] at h
  | .array n e, v, h, _ => by simp [GType.solid] at h
  | .struct ns ts, v, h, hh => by
    cases v with
    | struct vs =>
      simp only [GType.solid, Bool.and_eq_true] at h
      simp only [GType.holds] at hh
      exact ⟨solidAll_full ts vs h.2 hh, fun _ => anyScalar_leaf ts vs h.1 hh⟩
    | _ => simp [GType.holds] at hh

theorem solidAll_full : ∀ (ts : List GType) (vs : List GVal), solidAll ts = true → holdsAll ts vs = true →
    fullAll vs = true
  | [], vs, _, hh => by cases vs <;> simp [holdsAll] at hh; rfl
  | t :: ts, [], _, hh => by simp [holdsAll] at hh
  | t :: ts, v :: vs, h, hh => by
    simp only [solidAll, Bool.and_eq_true] at h
    simp only [holdsAll, Bool.and_eq_true] at hh
    simp only [fullAll, Bool.and_eq_true, Bool.or_eq_true, Bool.not_eq_true']
    have := solid_full t v h.1 hh.1
    refine ⟨⟨this.1, ?_⟩, solidAll_full ts vs h.2 hh.2⟩
    cases hs : v.isStruct with
    | false => exact .inl rfl
    | true => exact .inr (this.2 hs)

end

theorem library_types : ∀ E ∈ libraryEvents, E.type.isRecord = true ∧ E.type.plain = true ∧ E.type.solid = true := by
  intro E hE
  simp only [libraryEvents, List.mem_cons, List.not_mem_nil, or_false] at hE
  rcases hE with rfl | rfl | rfl | rfl | rfl | rfl | rfl | rfl <;> exact ⟨by decide, by decide, by decide⟩

theorem library_reflective : ∀ E ∈ libraryEvents, E.reflective := by
  intro E hE
  simp only [libraryEvents, List.mem_cons, List.not_mem_nil, or_false] at hE
  rcases hE with rfl | rfl | rfl | rfl | rfl | rfl | rfl | rfl <;> exact ⟨rfl, rfl⟩

theorem library_conforms {E : EventType} (hE : E ∈ libraryEvents) {v : GVal} (hh : E.type.holds v = true) :
    Conforms E v := by
  obtain ⟨h1, h2, h3⟩ := library_types E hE
  exact ⟨library_reflective E hE, h1, h2, hh, (solid_full _ v h3 hh).1⟩

/-- All pairs of field names of two types are apart. -/
def namesFar (ns ms : List Bytes) : Bool := ns.all fun n => ms.all fun m => !clash n m && !clash m n

theorem namesFar_apart {E F : EventType} (h : namesFar E.type.names F.type.names = true) : E.apart F := by
  intro n hn m hm
  simp only [namesFar, List.all_eq_true, Bool.and_eq_true, Bool.not_eq_true'] at h
  exact h n hn m hm

theorem library_apart : ∀ E ∈ libraryEvents, ∀ F ∈ libraryEvents, E.schema ≠ F.schema →
    ¬ (E.schema = b!"msg" ∧ F.schema = b!"log") → ¬ (E.schema = b!"log" ∧ F.schema = b!"msg") → E.apart F := by
  intro E hE F hF hne h1 h2
  apply namesFar_apart
  simp only [libraryEvents, List.mem_cons, List.not_mem_nil, or_false] at hE hF
  rcases hE with rfl | rfl | rfl | rfl | rfl | rfl | rfl | rfl <;>
    rcases hF with rfl | rfl | rfl | rfl | rfl | rfl | rfl | rfl <;>
    first
    | exact absurd rfl hne
    | exact absurd ⟨rfl, rfl⟩ h1
    | exact absurd ⟨rfl, rfl⟩ h2
    | decide

theorem library_registers : ∃ reg, registerAll libraryEvents [] = some reg ∧
    ∀ E ∈ libraryEvents, AMap.get reg E.schema = some E := by
  refine ⟨libraryEvents.map fun E => (E.schema, E), rfl, ?_⟩
  intro E hE
  simp only [libraryEvents, List.mem_cons, List.not_mem_nil, or_false] at hE
  rcases hE with rfl | rfl | rfl | rfl | rfl | rfl | rfl | rfl <;> rfl

end Appdash
