import Verif.Proofs.EventLibrary

/-!
# Properties of event marshalling

C39 an event survives marshalling; C40 the schema check; C41 several events on one span; C62 and C63 the stronger
expectations that do not hold.
-/

namespace Appdash

/-! ## C39 -/

/-- Property C39.  Unmarshalling an event's own annotations, in whatever order `MarshalEvent` produced them, into a fresh
event yields an equal event. -/
theorem event_roundtrip (E : EventType) (v : GVal) (hc : Conforms E v) (as : List Annotation)
    (hm : Marshals E v (.ok as)) :
    ∃ v', unmarshalEvent E as E.type.zero = some (v', none) ∧ v.Same v' :=
  unmarshal_own hc hm

/-- Property C39, among other annotations: the event is found again in every annotation list that contains its annotations
and in which no other annotation's key clashes with one of its field names. -/
theorem event_roundtrip_among (E : EventType) (v : GVal) (hc : Conforms E v) (own as : List Annotation)
    (hm : Marshals E v (.ok own)) (hin : ∀ a ∈ own, a ∈ as)
    (hout : ∀ a ∈ as, a ∈ own ∨ ∀ n ∈ E.type.names, clash n a.key = false) :
    ∃ v', unmarshalEvent E as E.type.zero = some (v', none) ∧ v.Same v' :=
  unmarshal_among hc hm hin hout

/-- Property C39, for the event types of the library: every value of them survives. -/
theorem library_event_roundtrip (E : EventType) (hE : E ∈ libraryEvents) (v : GVal) (hh : E.type.holds v = true)
    (as : List Annotation) (hm : Marshals E v (.ok as)) :
    ∃ v', unmarshalEvent E as E.type.zero = some (v', none) ∧ v.Same v' :=
  unmarshal_own (library_conforms hE hh) hm

/-- Property C39: names of letters, digits and underscores are apart if they are non-empty and distinct. -/
theorem alphanumeric_names_apart (ns : List Bytes) (hne : ∀ n ∈ ns, n ≠ []) (hd : ns.Nodup)
    (hc : ∀ n ∈ ns, ∀ c ∈ n, (46 : UInt8) < c) : namesApart ns = true := by
  have key : ∀ a b : Bytes, (∀ c ∈ b, (46 : UInt8) < c) → a ≠ b → clash a b = false := by
    intro a
    induction a with
    | nil =>
      intro b hb hab
      cases b with
      | nil => exact absurd rfl hab
      | cons c b =>
        have := hb c (List.mem_cons_self ..)
        rw [UInt8.lt_iff_toNat_lt] at this
        simp only [clash, decide_eq_false_iff_not, UInt8.le_iff_toNat_le]
        omega
    | cons x a ih =>
      intro b hb hab
      cases b with
      | nil => rfl
      | cons c b =>
        simp only [clash, Bool.and_eq_false_iff, decide_eq_false_iff_not]
        by_cases hxc : x = c
        · right
          exact ih b (fun d hd => hb d (List.mem_cons_of_mem _ hd)) (fun h => hab (by rw [hxc, h]))
        · exact .inl hxc
  induction ns with
  | nil => rfl
  | cons n ns ih =>
    rw [List.nodup_cons] at hd
    simp only [namesApart, Bool.and_eq_true, decide_eq_true_eq, List.all_eq_true, Bool.not_eq_true']
    refine ⟨⟨hne n (List.mem_cons_self ..), ?_⟩, ih (fun m hm => hne m (List.mem_cons_of_mem _ hm)) hd.2
      fun m hm => hc m (List.mem_cons_of_mem _ hm)⟩
    intro m hm
    have hnm : n ≠ m := fun h => hd.1 (h ▸ hm)
    exact ⟨key n m (hc m (List.mem_cons_of_mem _ hm)) hnm, key m n (hc n (List.mem_cons_self ..)) (Ne.symm hnm)⟩

/-- A type with every kind of field: a nested struct with a map and a sequence, numbers, a time. -/
def sampleType : EventType :=
  { schema := b!"sample"
    type := .struct [b!"Inner", b!"N", b!"OK", b!"When", b!"Name"]
      [.struct [b!"H", b!"L", b!"U"] [.map .string, .slice (.int 32), .scalar false (.uint 8)],
        .scalar false (.int 64), .scalar false .bool, tTime, tString] }

/-- A value of that type. -/
def sampleValue : GVal :=
  .struct [.struct [.map [(b!"k.x", .string b!"v"), (b!"", .string [])], .seq [.int (-7), .int 5], .scalar (.uint 255)],
    .scalar (.int (-9223372036854775808)), .scalar (.bool true), .scalar (.time ⟨2015, 2, 28, 23, 59, 59, 120000, -90⟩),
    .scalar (.string b!"a/b")]

theorem sample_conforms : Conforms sampleType sampleValue :=
  ⟨⟨rfl, rfl⟩, by decide, by decide, by decide, by decide⟩

example : ∃ as, Marshals sampleType sampleValue (.ok as) ∧ as.length = 10 :=
  ⟨_, ⟨_, List.Perm.refl _, rfl⟩, rfl⟩

example : ∃ v', unmarshalEvent sampleType
    ((flatten sampleType.type [] sampleValue).map annotationOf ++ [schemaMarker b!"sample"]) sampleType.type.zero =
      some (v', none) ∧ sampleValue.Same v' :=
  event_roundtrip _ _ sample_conforms _ ⟨_, List.Perm.refl _, rfl⟩

example : timespan ∈ libraryEvents ∧
    timespan.type.holds (.struct [.scalar (.time ⟨2015, 1, 1, 0, 0, 0, 5, 0⟩), .scalar (.time ⟨2016, 2, 29, 0, 0, 0, 0, 60⟩)]) = true :=
  ⟨by simp [libraryEvents], by decide⟩

/-! ## C40 -/

/-- Property C40.  `UnmarshalEvent` returns a schema error exactly if no annotation is the marker of the target's schema. -/
theorem schema_error_iff (E : EventType) (as : List Annotation) (v : GVal) :
    (∃ v' found target, unmarshalEvent E as v = some (v', some (.schema found target))) ↔
      ∀ a ∈ as, a.key ≠ b!"_schema:" ++ E.schema := by
  have hmem : (schemas as).contains E.schema = true ↔ ∃ a ∈ as, a.key = b!"_schema:" ++ E.schema := by
    rw [List.contains_iff_mem]; exact mem_schemas
  constructor
  · rintro ⟨v', found, target, h⟩ a ha hk
    have hc := hmem.2 ⟨a, ha, hk⟩
    simp only [unmarshalEvent, hc, Bool.true_eq_false, if_false] at h
    cases hu : E.unmarshaler with
    | some f =>
      rw [hu] at h
      simp only at h
      cases hf : f as with
      | error c => rw [hf] at h; simp at h
      | ok ev => rw [hf] at h; simp at h
    | none =>
      rw [hu] at h
      simp only at h
      cases hun : unflatten E.type [] v (mapToKVs (stringMap as)) with
      | none => rw [hun] at h; simp at h
      | some r => rw [hun] at h; simp at h
  · intro h
    have hc : (schemas as).contains E.schema = false := by
      cases hb : (schemas as).contains E.schema with
      | false => rfl
      | true => obtain ⟨a, ha, hk⟩ := hmem.1 hb; exact absurd hk (h a ha)
    exact ⟨v, _, _, by simp only [unmarshalEvent, hc, if_true]; rfl⟩

/-- Property C40.  A schema error leaves the event untouched; it names the target's schema and the schemas found. -/
theorem schema_error_untouched (E : EventType) (as : List Annotation) (v v' : GVal) (found : List Bytes) (target : Bytes)
    (h : unmarshalEvent E as v = some (v', some (.schema found target))) :
    v' = v ∧ target = E.schema ∧ ∀ s, s ∈ found ↔ ∃ a ∈ as, a.key = b!"_schema:" ++ s := by
  have hno := (schema_error_iff E as v).1 ⟨v', found, target, h⟩
  have hc : (schemas as).contains E.schema = false := by
    cases hb : (schemas as).contains E.schema with
    | false => rfl
    | true =>
      obtain ⟨a, ha, hk⟩ := mem_schemas.1 (List.contains_iff_mem.1 hb)
      exact absurd hk (hno a ha)
  simp only [unmarshalEvent, hc, if_true, Option.some.injEq, Prod.mk.injEq, EventErr.schema.injEq] at h
  obtain ⟨rfl, rfl, rfl⟩ := h
  exact ⟨rfl, rfl, fun s => mem_schemas⟩

/-- Property C40.  `MarshalEvent` succeeds for every event without a marshalling method of its own; its last annotation is the
event's marker, and no other annotation is a marker. -/
theorem marshal_marker (E : EventType) (hE : E.marshaler = none) (hr : E.type.isRecord = true) (v : GVal)
    (r : Except EventErr (List Annotation)) (hm : Marshals E v r) :
    ∃ body, r = .ok (body ++ [⟨b!"_schema:" ++ E.schema, none⟩]) ∧
      ∀ a ∈ body, ∀ s, a.key ≠ b!"_schema:" ++ s := by
  simp only [Marshals, hE] at hm
  obtain ⟨kvs, hp, rfl⟩ := hm
  refine ⟨kvs.map annotationOf, rfl, ?_⟩
  intro a ha s hk
  obtain ⟨e, he, rfl⟩ := List.mem_map.1 ha
  have h := event_no_marker hr (hp.mem_iff.1 he)
  have hk' : e.1 = schemaPrefix ++ s := hk
  rw [hk', isPrefixOf_append.2 ⟨s, rfl⟩] at h
  exact absurd h (by decide)

/-- Property C40.  For an event with its own marshalling method, `MarshalEvent` appends the marker to what the method returns,
or returns the method's error. -/
theorem marshal_custom (E : EventType) (f : GVal → Except Nat (List Annotation)) (hE : E.marshaler = some f) (v : GVal)
    (r : Except EventErr (List Annotation)) (hm : Marshals E v r) :
    (∀ as, f v = .ok as → r = .ok (as ++ [⟨b!"_schema:" ++ E.schema, none⟩])) ∧
      ∀ c, f v = .error c → r = .error (.custom c) := by
  simp only [Marshals, hE] at hm
  constructor
  · intro as h
    rw [h] at hm
    exact hm
  · intro c h
    rw [h] at hm
    exact hm

/-- Property C40.  So what `MarshalEvent` returns never causes a schema error for the same event type. -/
theorem marshalled_has_schema (E : EventType) (v w : GVal) (as : List Annotation) (hm : Marshals E v (.ok as)) :
    ¬ ∃ v' found target, unmarshalEvent E as w = some (v', some (.schema found target)) := by
  rw [schema_error_iff]
  intro h
  refine h (schemaMarker E.schema) ?_ rfl
  unfold Marshals at hm
  split at hm
  · rename_i f _
    cases hf : f v with
    | error c => rw [hf] at hm; simp at hm
    | ok bs =>
      rw [hf] at hm
      simp only [Except.ok.injEq] at hm
      rw [hm]; simp
  · obtain ⟨kvs, _, h2⟩ := hm
    simp only [Except.ok.injEq] at h2
    rw [h2]; simp

example : ∃ v' found target, unmarshalEvent msgEvent [⟨b!"Msg", some b!"x"⟩, ⟨b!"_schema:log", none⟩] msgEvent.type.zero =
    some (v', some (.schema found target)) :=
  (schema_error_iff _ _ _).2 (by decide)

example : ¬ ∃ v' found target, unmarshalEvent msgEvent [⟨b!"Msg", some b!"x"⟩, ⟨b!"_schema:msg", none⟩] msgEvent.type.zero =
    some (v', some (.schema found target)) := by
  rw [schema_error_iff]; decide

/-! ## C41 -/

/-- Property C41.  `UnmarshalEvents` of a span's annotations returns the recorded events, each equal to the one recorded, in the
order of recording, and nothing for the other annotations. -/
theorem events_roundtrip (reg : Registry) (ps : Pieces) (h : ps.Recorded reg) :
    ∃ out, unmarshalEvents reg ps.all = some (out, none) ∧
      List.Forall₂ (fun e o => o.1 = e.1.schema ∧ e.2.Same o.2) ps.events out :=
  pieces_unmarshal reg ps h

/-- Property C41, for the event types of the library: a span may carry one event of each of them, except that it must not carry
both a `Msg` and a `Log`. -/
theorem library_events_roundtrip (reg : Registry) (hreg : registerAll libraryEvents [] = some reg)
    (evs : List (EventType × GVal)) (anns : List (List Annotation))
    (hm : List.Forall₂ (fun e as => Marshals e.1 e.2 (.ok as)) evs anns)
    (hlib : ∀ e ∈ evs, e.1 ∈ libraryEvents) (hh : ∀ e ∈ evs, e.1.type.holds e.2 = true)
    (hd : evs.Pairwise fun e f => e.1.schema ≠ f.1.schema)
    (hml : ¬ ((∃ e ∈ evs, e.1.schema = b!"msg") ∧ ∃ e ∈ evs, e.1.schema = b!"log")) :
    ∃ out, unmarshalEvents reg anns.flatten = some (out, none) ∧
      List.Forall₂ (fun e o => o.1 = e.1.schema ∧ e.2.Same o.2) evs out := by
  obtain ⟨reg', hreg', hget⟩ := library_registers
  rw [hreg] at hreg'
  cases Option.some.inj hreg'
  obtain ⟨ps, h1, h2, h3, h4⟩ : ∃ ps : Pieces, ps.events = evs ∧ ps.all = anns.flatten ∧
      (∀ p ∈ ps, ∀ E v, p.1 = some (E, v) → Marshals E v (.ok p.2)) ∧ ∀ p ∈ ps, p.1 ≠ none := by
    clear hlib hh hd hml
    induction hm with
    | nil => exact ⟨[], rfl, rfl, by simp, by simp⟩
    | @cons e as evs anns hE _ ih =>
      obtain ⟨ps, h1, h2, h3, h4⟩ := ih
      refine ⟨(some e, as) :: ps, ?_, ?_, ?_, ?_⟩
      · simp only [Pieces.events] at h1
        simp [Pieces.events, h1]
      · simp only [Pieces.all] at h2
        simp [Pieces.all, h2]
      · intro p hp E v hpe
        rcases List.mem_cons.1 hp with rfl | hp
        · simp only [Option.some.injEq] at hpe
          subst hpe; exact hE
        · exact h3 p hp E v hpe
      · intro p hp
        rcases List.mem_cons.1 hp with rfl | hp
        · simp
        · exact h4 p hp
  have := pieces_unmarshal reg ps
    { marshalled := h3
      conforms := by rw [h1]; intro e he; exact library_conforms (hlib e he) (hh e he)
      registered := by rw [h1]; intro e he; exact hget _ (hlib e he)
      apart := by
        rw [h1]
        refine List.Pairwise.imp_of_mem ?_ hd
        intro e f he hf hne
        refine library_apart _ (hlib e he) _ (hlib f hf) hne ?_ ?_
        · rintro ⟨a, b⟩; exact hml ⟨⟨e, he, a⟩, f, hf, b⟩
        · rintro ⟨a, b⟩; exact hml ⟨⟨f, hf, b⟩, e, he, a⟩
      others := fun p hp hn => absurd hn (h4 p hp)
      unregistered := fun p hp hn => absurd hn (h4 p hp) }
  rw [h1, h2] at this
  exact this

/-- Property C41, registration: registering event types with distinct, non-empty schemas succeeds, and each is then found under
its schema. -/
theorem register_found (Es : List EventType) (reg : Registry) (hd : Es.Pairwise fun E F => E.schema ≠ F.schema)
    (hne : ∀ E ∈ Es, E.schema ≠ []) (hnew : ∀ E ∈ Es, AMap.get reg E.schema = none) :
    ∃ reg', registerAll Es reg = some reg' ∧ (∀ E ∈ Es, AMap.get reg' E.schema = some E) ∧
      ∀ s, (∀ E ∈ Es, E.schema ≠ s) → AMap.get reg' s = AMap.get reg s := by
  induction Es generalizing reg with
  | nil => exact ⟨reg, rfl, by simp, fun _ _ => rfl⟩
  | cons E Es ih =>
    have hd' := List.pairwise_cons.1 hd
    have hE := hnew E (List.mem_cons_self ..)
    obtain ⟨reg', h1, h2, h3⟩ := ih (AMap.set reg E.schema E) hd'.2 (fun F hF => hne F (List.mem_cons_of_mem _ hF))
      (fun F hF => by rw [AMap.get_set_ne _ _ (hd'.1 F hF)]; exact hnew F (List.mem_cons_of_mem _ hF))
    refine ⟨reg', ?_, ?_, ?_⟩
    · simp only [registerAll, registerEvent, hE, hne E (List.mem_cons_self ..), if_false]; exact h1
    · intro F hF
      rcases List.mem_cons.1 hF with rfl | hF
      · rw [h3 _ fun G hG => Ne.symm (hd'.1 G hG), AMap.get_set_self]
      · exact h2 F hF
    · intro s hs
      rw [h3 s fun G hG => hs G (List.mem_cons_of_mem _ hG), AMap.get_set_ne _ _ (hs E (List.mem_cons_self ..))]

/-- Property C41, registration: a second event type with a registered schema, or one with an empty schema, makes `RegisterEvent`
panic. -/
theorem register_panics (reg : Registry) (E : EventType) :
    registerEvent reg E = none ↔ AMap.get reg E.schema ≠ none ∨ E.schema = [] := by
  unfold registerEvent
  cases AMap.get reg E.schema with
  | some F => simp
  | none => by_cases h : E.schema = [] <;> simp [h]

/-- A name, a timespan and a message on one span. -/
def sampleEvents : List (EventType × GVal) :=
  [(spanNameEvent, .struct [.scalar (.string b!"home")]),
    (timespan, .struct [.scalar (.time ⟨2015, 1, 1, 0, 0, 0, 5, 0⟩), .scalar (.time ⟨2015, 1, 1, 0, 0, 1, 0, 0⟩)]),
    (msgEvent, .struct [.scalar (.string b!"hi")])]

example : (∀ e ∈ sampleEvents, e.1 ∈ libraryEvents) ∧ (∀ e ∈ sampleEvents, e.1.type.holds e.2 = true) ∧
    (sampleEvents.Pairwise fun e f => e.1.schema ≠ f.1.schema) ∧
    ¬ ((∃ e ∈ sampleEvents, e.1.schema = b!"msg") ∧ ∃ e ∈ sampleEvents, e.1.schema = b!"log") :=
  ⟨by simp [sampleEvents, libraryEvents], by
    intro e he
    simp only [sampleEvents, List.mem_cons, List.not_mem_nil, or_false] at he
    rcases he with rfl | rfl | rfl <;> decide, by simp [sampleEvents, spanNameEvent, timespan, msgEvent],
    by simp [sampleEvents, spanNameEvent, timespan, msgEvent]⟩

/-! ## C62: which events do not survive -/

/-- Property C62, in full: whatever the names of the fields (distinct and not empty) and whatever the values. -/
def EveryEventSurvives : Prop :=
  ∀ (E : EventType) (v : GVal) (as : List Annotation), E.reflective → E.type.isRecord = true → E.type.names.Nodup →
    E.type.holds v = true → Marshals E v (.ok as) →
    ∃ v', unmarshalEvent E as E.type.zero = some (v', none) ∧ v.Same v'

/-- An event type with a sequence of strings and a string. -/
def listEvent : EventType :=
  { schema := b!"e", type := .struct [b!"A", b!"B"] [.slice .string, tString] }

/-- An empty sequence makes the fields after it come back empty. -/
theorem empty_slice_loses_next :
    unmarshalEvent listEvent [⟨b!"B", some b!"x"⟩, ⟨b!"_schema:e", none⟩] listEvent.type.zero =
      some (.struct [.seq [], .scalar (.string [])], none) := by rfl

/-- An empty sequence comes back with one element if another field's name begins with its name. -/
theorem empty_slice_gains_element :
    unmarshalEvent { schema := b!"e", type := .struct [b!"A", b!"AB"] [.slice .string, tString] }
      [⟨b!"AB", some b!"x"⟩, ⟨b!"_schema:e", none⟩] (.struct [.seq [], .scalar (.string [])]) =
      some (.struct [.seq [.string []], .scalar (.string b!"x")], none) := by rfl

/-- A nested struct with nothing but an empty map makes the fields after it come back empty. -/
theorem empty_struct_loses_next :
    unmarshalEvent { schema := b!"e", type := .struct [b!"A", b!"B"] [.struct [b!"H"] [.map .string], tString] }
      [⟨b!"B", some b!"x"⟩, ⟨b!"_schema:e", none⟩] (.struct [.struct [.map []], .scalar (.string [])]) =
      some (.struct [.struct [.map []], .scalar (.string [])], none) := by rfl

/-- Names that clash: with the fields `A` (a struct) and `A.B`, the second is lost. -/
theorem clashing_names_lose :
    unmarshalEvent { schema := b!"e", type := .struct [b!"A", b!"A.B"] [.struct [b!"C"] [tString], tString] }
      [⟨b!"A.C", some b!"x"⟩, ⟨b!"A.B", some b!"y"⟩, ⟨b!"_schema:e", none⟩]
      (.struct [.struct [.scalar (.string [])], .scalar (.string [])]) =
      some (.struct [.struct [.scalar (.string b!"x")], .scalar (.string [])], none) := by rfl

/-- A field of a defined type such as `type Status int` makes `UnmarshalEvent` panic. -/
theorem defined_type_panics :
    unmarshalEvent { schema := b!"e", type := .struct [b!"A"] [.scalar true (.int 64)] }
      [⟨b!"A", some b!"5"⟩, ⟨b!"_schema:e", none⟩] (.struct [.scalar (.int 0)]) = none := by rfl

/-- Property C62 is false of the code. -/
theorem every_event_survives_false : ¬ EveryEventSurvives := by
  intro h
  obtain ⟨v', h1, h2⟩ := h listEvent (.struct [.seq [], .scalar (.string b!"x")]) _ ⟨rfl, rfl⟩ (by decide) (by decide)
    (by decide) ⟨_, List.Perm.refl _, rfl⟩
  have h3 := h1.symm.trans empty_slice_loses_next
  simp only [Option.some.injEq, Prod.mk.injEq, and_true] at h3
  subst h3
  cases h2 with
  | struct _ _ _ hf =>
    have := hf 1 _ _ rfl rfl
    cases this

/-- Property C62, proved part: events that conform, which excludes empty sequences, nested structs without annotations, clashing
names and defined scalar types. -/
theorem every_event_survives_partial (E : EventType) (v : GVal) (as : List Annotation) (hc : Conforms E v)
    (hm : Marshals E v (.ok as)) : ∃ v', unmarshalEvent E as E.type.zero = some (v', none) ∧ v.Same v' :=
  unmarshal_own hc hm

/-! ## C63: several events with common field names -/

/-- Property C63, in full: any registered events on one span. -/
def EveryEventReturned : Prop :=
  ∀ (reg : Registry), registerAll libraryEvents [] = some reg → ∀ (evs : List (EventType × GVal)) (anns : List (List Annotation)),
    List.Forall₂ (fun e as => Marshals e.1 e.2 (.ok as)) evs anns → (∀ e ∈ evs, e.1 ∈ libraryEvents) →
    (∀ e ∈ evs, e.1.type.holds e.2 = true) →
    ∃ out, unmarshalEvents reg anns.flatten = some (out, none) ∧
      List.Forall₂ (fun e o => o.1 = e.1.schema ∧ e.2.Same o.2) evs out

/-- Whatever two messages are recorded on a span, both come back with the text of the second. -/
theorem two_messages (reg : Registry) (hreg : registerAll libraryEvents [] = some reg) (a b : Bytes) :
    unmarshalEvents reg [⟨b!"Msg", some a⟩, ⟨b!"_schema:msg", none⟩, ⟨b!"Msg", some b⟩, ⟨b!"_schema:msg", none⟩] =
      some ([(b!"msg", .struct [.scalar (.string b)]), (b!"msg", .struct [.scalar (.string b)])], none) := by
  cases hreg
  rfl

/-- Property C63 is false of the code. -/
theorem every_event_returned_false : ¬ EveryEventReturned := by
  intro h
  obtain ⟨reg, hreg, _⟩ := library_registers
  have hm : ∀ a : Bytes, Marshals msgEvent (.struct [.scalar (.string a)])
      (.ok [⟨b!"Msg", some a⟩, ⟨b!"_schema:msg", none⟩]) := fun a => ⟨[(b!"Msg", a)], List.Perm.refl _, rfl⟩
  obtain ⟨out, h1, h2⟩ := h reg hreg [(msgEvent, .struct [.scalar (.string b!"x")]), (msgEvent, .struct [.scalar (.string b!"y")])]
    [[⟨b!"Msg", some b!"x"⟩, ⟨b!"_schema:msg", none⟩], [⟨b!"Msg", some b!"y"⟩, ⟨b!"_schema:msg", none⟩]]
    (.cons (hm _) (.cons (hm _) .nil))
    (by intro e he; simp only [List.mem_cons, List.not_mem_nil, or_false] at he; rcases he with rfl | rfl <;> simp [libraryEvents])
    (by intro e he; simp only [List.mem_cons, List.not_mem_nil, or_false] at he; rcases he with rfl | rfl <;> decide)
  have h3 := h1.symm.trans (two_messages reg hreg b!"x" b!"y")
  simp only [Option.some.injEq, Prod.mk.injEq, and_true] at h3
  subst h3
  cases h2 with
  | cons hx _ =>
    cases hx.2 with
    | struct _ _ _ hf =>
      have := hf 0 _ _ rfl rfl
      cases this

/-- Property C63, proved part: the events' field names are apart. -/
theorem every_event_returned_partial (reg : Registry) (ps : Pieces) (h : ps.Recorded reg) :
    ∃ out, unmarshalEvents reg ps.all = some (out, none) ∧
      List.Forall₂ (fun e o => o.1 = e.1.schema ∧ e.2.Same o.2) ps.events out :=
  pieces_unmarshal reg ps h

end Appdash
