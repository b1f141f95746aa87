import Verif.Model.EventRegister
import Verif.Properties.EventRich

/-!
# C124: every event type that can be registered can be read
-/

namespace Appdash

/-- After registering, each schema stands for what was registered under it. -/
theorem registerEach_spec {Rs : List Registrable} {reg reg' : FullRegistry} (h : registerEach Rs reg = some reg') :
    (∀ R ∈ Rs, AMap.get reg' R.event.schema = some R) ∧
    (∀ s R, AMap.get reg s = some R → AMap.get reg' s = some R) ∧
    ∀ s R, AMap.get reg' s = some R → AMap.get reg s = some R ∨ (R ∈ Rs ∧ R.event.schema = s) := by
  induction Rs generalizing reg with
  | nil =>
    rw [registerEach] at h
    cases h
    exact ⟨by simp, fun _ _ h => h, fun _ _ h => .inl h⟩
  | cons R Rs ih =>
    rw [registerEach] at h
    cases hr : registerAny reg R with
    | none => rw [hr] at h; cases h
    | some reg1 =>
      rw [hr] at h
      obtain ⟨h1, h2, h3⟩ := ih h
      unfold registerAny at hr
      cases hg : AMap.get reg R.event.schema with
      | some _ => rw [hg] at hr; cases hr
      | none =>
        rw [hg] at hr
        simp only at hr
        split at hr
        · cases hr
        · cases hr
          refine ⟨?_, ?_, ?_⟩
          · intro R' hR'
            rcases List.mem_cons.1 hR' with rfl | hR'
            · exact h2 _ _ (AMap.get_set_self ..)
            · exact h1 R' hR'
          · intro s R' hs
            refine h2 s R' ?_
            rw [AMap.get_set_ne _ _ ?_]
            · exact hs
            · rintro rfl
              rw [hg] at hs
              cases hs
          · intro s R' hs
            rcases h3 s R' hs with h | ⟨hm, e⟩
            · rw [AMap.get_set] at h
              split at h
              · rename_i e
                cases h
                exact .inr ⟨List.mem_cons_self .., e⟩
              · exact .inl h
            · exact .inr ⟨List.mem_cons_of_mem _ hm, e⟩

/-- The full statement of **C124**: if events of types that cannot make reading panic by themselves (see C104) are registered, reading does
not panic. -/
def RegisteredCanBeRead : Prop :=
  ∀ (Rs : List Registrable) (reg : FullRegistry), registerEach Rs [] = some reg → (∀ R ∈ Rs, Steady R.event.type.rich) →
    ∀ as : List Annotation, unmarshalAny reg as ≠ none

/-- **C124**, exactly: reading panics if and only if the annotations have the schema of an event that was registered as a pointer. -/
theorem reading_panics_iff_partial (Rs : List Registrable) (reg : FullRegistry) (hreg : registerEach Rs [] = some reg)
    (hst : ∀ R ∈ Rs, Steady R.event.type.rich) (hun : ∀ R ∈ Rs, R.event.unmarshaler = none) (as : List Annotation) :
    unmarshalAny reg as = none ↔ ∃ R ∈ Rs, R.pointer = true ∧ R.event.schema ∈ schemas as := by
  obtain ⟨h1, -, h3⟩ := registerEach_spec hreg
  have hget : ∀ s R, AMap.get reg s = some R → R ∈ Rs ∧ R.event.schema = s := by
    intro s R h
    rcases h3 s R h with h | h
    · cases h
    · exact h
  suffices h : ∀ (ss : List Bytes) (evs : List (Bytes × GVal)), (∀ s ∈ ss, s ∈ schemas as) →
      (unmarshalAnyLoop reg as ss evs = none ↔ ∃ R ∈ Rs, R.pointer = true ∧ R.event.schema ∈ ss) from h _ _ fun _ h => h
  intro ss
  induction ss with
  | nil => simp [unmarshalAnyLoop]
  | cons s ss ih =>
    intro evs hss
    have ih' := fun evs => ih evs fun s hs => hss s (List.mem_cons_of_mem _ hs)
    rw [unmarshalAnyLoop]
    cases hg : AMap.get reg s with
    | none =>
      simp only
      rw [ih']
      constructor
      · rintro ⟨R, a, b, c⟩
        exact ⟨R, a, b, List.mem_cons_of_mem _ c⟩
      · rintro ⟨R, a, b, c⟩
        rcases List.mem_cons.1 c with c | c
        · rw [← c, h1 R a] at hg
          cases hg
        · exact ⟨R, a, b, c⟩
    | some R =>
      obtain ⟨hR, hRs⟩ := hget s R hg
      simp only
      by_cases hp : R.pointer = true
      · rw [if_pos hp]
        exact ⟨fun _ => ⟨R, hR, hp, by rw [hRs]; exact List.mem_cons_self ..⟩, fun _ => rfl⟩
      · rw [if_neg hp]
        have hne := steady_unmarshal R.event (hst R hR) as
        cases hu : unmarshalEvent R.event as R.event.type.zero with
        | none => exact absurd hu hne
        | some r =>
          obtain ⟨v, err⟩ := r
          have hc : (schemas as).contains R.event.schema = true := by
            rw [List.contains_iff_mem, hRs]
            exact hss s (List.mem_cons_self ..)
          have : err = none := by
            unfold unmarshalEvent at hu
            rw [hc] at hu
            simp only [hun R hR, Bool.true_eq_false, if_false] at hu
            split at hu
            · cases hu
            · cases hu; rfl
          subst this
          simp only
          rw [ih']
          constructor
          · rintro ⟨R, a, b, c⟩
            exact ⟨R, a, b, List.mem_cons_of_mem _ c⟩
          · rintro ⟨R', a, b, c⟩
            rcases List.mem_cons.1 c with c | c
            · have := h1 R' a
              rw [c, hg] at this
              cases this
              exact absurd b hp
            · exact ⟨R', a, b, c⟩

/-- If no pointer was registered, `UnmarshalEvents` is as modelled in `Verif.Model.Event`. -/
theorem values_registered_agree (reg : FullRegistry) (h : ∀ s R, AMap.get reg s = some R → R.pointer = false) (as : List Annotation) :
    unmarshalAny reg as = unmarshalEvents (reg.map fun e => (e.1, e.2.event)) as := by
  have hget : ∀ (reg : FullRegistry) (s : Bytes), AMap.get (reg.map fun e => (e.1, e.2.event)) s = (AMap.get reg s).map Registrable.event := by
    intro reg s
    induction reg with
    | nil => rfl
    | cons e reg ih =>
      simp only [List.map_cons, AMap.get]
      split
      · rfl
      · exact ih
  unfold unmarshalAny unmarshalEvents
  generalize schemas as = ss
  generalize ([] : List (Bytes × GVal)) = evs
  induction ss generalizing evs with
  | nil => rfl
  | cons s ss ih =>
    rw [unmarshalAnyLoop, unmarshalLoop, hget]
    cases hg : AMap.get reg s with
    | none => exact ih evs
    | some R =>
      simp only [Option.map_some, h s R hg, Bool.false_eq_true, if_false]
      cases unmarshalEvent R.event as R.event.type.zero with
      | none => rfl
      | some r =>
        obtain ⟨v, err⟩ := r
        cases err with
        | none => exact ih _
        | some err => rfl

/-- A program that registers a pointer to an event with one string. -/
def pointerProgram : List Registrable := [⟨spanNameEvent, false⟩, ⟨{ schema := b!"job", type := .struct [b!"Job"] [tString] }, true⟩]

theorem pointerProgram_registers : ∃ reg, registerEach pointerProgram [] = some reg := ⟨_, rfl⟩

theorem pointerProgram_steady : ∀ R ∈ pointerProgram, Steady R.event.type.rich := by
  have hs : ∀ t ∈ [RType.scalar false ScalarTy.string], Steady t := by
    intro t ht
    rw [List.mem_singleton.1 ht]
    exact .scalar _
  intro R hR
  rcases List.mem_cons.1 hR with rfl | hR
  · exact .struct _ _ hs
  · rw [List.mem_singleton.1 hR]
    exact .struct _ _ hs

/-- **C124 is false**: the annotations that recording the event itself made cannot be read. -/
theorem registered_pointer_panics : ¬ RegisteredCanBeRead := by
  intro h
  obtain ⟨reg, hreg⟩ := pointerProgram_registers
  refine h _ reg hreg pointerProgram_steady [⟨b!"Job", some b!"x"⟩, ⟨b!"_schema:job", none⟩] ?_
  rw [reading_panics_iff_partial _ reg hreg pointerProgram_steady (by
    intro R hR
    rcases List.mem_cons.1 hR with rfl | hR
    · rfl
    · rw [List.mem_singleton.1 hR])]
  exact ⟨⟨{ schema := b!"job", type := .struct [b!"Job"] [tString] }, true⟩, .tail _ (.head _), rfl, by decide⟩

/-- These annotations are what `MarshalEvent` makes of the event. -/
example : Marshals { schema := b!"job", type := .struct [b!"Job"] [tString] } (.struct [.scalar (.string b!"x")])
    (.ok [⟨b!"Job", some b!"x"⟩, ⟨b!"_schema:job", none⟩]) := ⟨[(b!"Job", b!"x")], .refl _, rfl⟩

end Appdash
