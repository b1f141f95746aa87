import Verif.Proofs.EventRichRead
import Verif.Proofs.EventNested
import Verif.Properties.Event

/-!
# C102, C103, C104: events with fields of any type
-/

namespace Appdash

/-! ## The two models agree -/

/-- For events of the types of `Verif.Model.Reflect`, recording is the same in both models, and never panics. -/
theorem models_agree_recording (S : Texts) (E : EventType) (hr : E.reflective) (v : GVal) (r : Option (List Annotation)) :
    MarshalsR S ⟨E.schema, E.type.rich⟩ v.rich r ↔ ∃ as, r = some as ∧ Marshals E v (.ok as) := by
  simp only [MarshalsR, flattenR_rich, Marshals, hr.1, Except.ok.injEq]
  constructor
  · rintro ⟨p, h1, rfl⟩
    exact ⟨_, rfl, p, h1, rfl⟩
  · rintro ⟨as, rfl, p, h1, rfl⟩
    exact ⟨p, h1, rfl⟩

/-- For events of the types of `Verif.Model.Reflect`, reading into a zero value is the same in both models. -/
theorem models_agree_reading (E : EventType) (hr : E.reflective) (as : List Annotation) :
    unmarshalR ⟨E.schema, E.type.rich⟩ as = (unmarshalEvent E as E.type.zero).map fun r => (r.1.rich, r.2) := by
  simp only [unmarshalR, unmarshalEvent, hr.2, unflattenR_rich, zero_rich]
  split
  · rfl
  · cases unflatten E.type [] E.type.zero (mapToKVs (stringMap as)) with
    | none => rfl
    | some r => rfl

/-! ## C102: recording -/

/-- An event with a pointer: `struct{ Retry *int; Note string }`. -/
def retryEvent : RichEvent := { schema := b!"retry", type := .struct [b!"Retry", b!"Note"] [.ptr (.scalar false (.int 64)), .scalar false .string] }

/-- The full statement of **C102**: recording an event does not panic. -/
def RecordingNeverPanics : Prop := ∀ (S : Texts) (E : RichEvent) (v : RVal), ¬ MarshalsR S E v none

/-- **C102**, exactly when recording panics: if a nil pointer can be reached in the event. -/
theorem recording_panics_iff (S : Texts) (E : RichEvent) (v : RVal) : MarshalsR S E v none ↔ NilInside E.type v := by
  rw [← flattenR_none S v E.type []]
  unfold MarshalsR
  cases flattenR S E.type [] v with
  | none => simp
  | some kvs => simp

/-- An event whose pointer is nil makes the recorder panic, whatever its other fields. -/
theorem nil_pointer_panics (S : Texts) (note : Scalar) : MarshalsR S retryEvent (.struct [.nil, .scalar note]) none :=
  (recording_panics_iff ..).2 (.field 0 rfl rfl rfl (.here _))

/-- **C102 is false**. -/
theorem recording_can_panic : ¬ RecordingNeverPanics := fun h =>
  h ⟨fun _ => [], fun _ => [], fun _ _ => [], fun _ _ => []⟩ _ _ (nil_pointer_panics _ (.string b!"x"))

/-- **C102** for events without a reachable nil pointer: annotations are made. -/
theorem recording_partial (S : Texts) (E : RichEvent) (v : RVal) (h : ¬ NilInside E.type v) :
    ¬ MarshalsR S E v none ∧ ∃ as, MarshalsR S E v (some as) := by
  refine ⟨fun hm => h ((recording_panics_iff ..).1 hm), ?_⟩
  unfold MarshalsR
  cases hf : flattenR S E.type [] v with
  | none => exact absurd ((flattenR_none S v E.type []).1 hf) h
  | some kvs => exact ⟨_, kvs, List.Perm.refl _, rfl⟩

/-- An event with a pointer that is not nil has none. -/
theorem retry_no_nil (n : Int) (s : Bytes) : ¬ NilInside retryEvent.type (.struct [.ptr (.scalar (.int n)), .scalar (.string s)]) := by
  rintro (_ | _ | _ | ⟨i, h1, h2, h3, h4⟩)
  match i with
  | 0 =>
    cases h2
    cases h3
    cases h4 with
    | deref _ _ _ h => cases h
  | 1 =>
    cases h2
    cases h3
    cases h4
  | i + 2 => simp at h2

example (S : Texts) : ∃ as, MarshalsR S retryEvent (.struct [.ptr (.scalar (.int 3)), .scalar (.string b!"again")]) (some as) :=
  (recording_partial S _ _ (retry_no_nil _ _)).2

/-- A nil pointer behind a pointer, in a slice, in a struct. -/
example (S : Texts) : MarshalsR S ⟨b!"e", .struct [b!"A"] [.slice (.ptr (.ptr (.scalar false .string)))]⟩
    (.struct [.seq [.ptr (.ptr (.scalar (.string []))), .ptr .nil]]) none :=
  (recording_panics_iff ..).2 (.field 0 rfl rfl rfl (.element (v := .ptr .nil) (by simp) (.deref _ _ rfl (.here _))))

/-! ## C103: reading back -/

/-- The full statement of **C103**: an event that has been recorded is read back. -/
def RecordedEventsRead : Prop :=
  ∀ (S : Texts) (E : RichEvent) (ns : List Bytes) (ts : List RType) (vs : List RVal) (as : List Annotation),
    E.type = .struct ns ts → ns.Nodup → ns.length = ts.length → ts.length = vs.length → ns ≠ [] →
    (∀ n ∈ ns, n ≠ [] ∧ ¬ schemaPrefix <+: n) → MarshalsR S E (.struct vs) (some as) → unmarshalR E as = some (.struct vs, none)

/-- **C103** for events whose fields are scalars and pointers to booleans, numbers and strings: they are read back exactly, also among
other annotations, as long as later ones do not have the keys of its fields. -/
theorem pointers_survive_partial (S : Texts) (E : RichEvent) (ns : List Bytes) (ts : List RType) (ht : E.type = .struct ns ts)
    (hn : ns.Nodup) (hlen : ns.length = ts.length) (hne : ns ≠ []) (hrec : ∀ n ∈ ns, ¬ schemaPrefix <+: n) (vs : List RVal)
    (hp : List.Forall₂ PlainField ts vs) (own : List Annotation) (hm : MarshalsR S E (.struct vs) (some own))
    (before after : List Annotation) (hafter : ∀ a ∈ after, a.key ∉ ns) :
    unmarshalR E (before ++ own ++ after) = some (.struct vs, none) :=
  plain_event_reads S E ns ts ht hn hlen hne hrec vs hp own hm before after hafter

/-- An event with a pointer among other annotations. -/
example (S : Texts) (own : List Annotation)
    (hm : MarshalsR S retryEvent (.struct [.ptr (.scalar (.int (-3))), .scalar (.string b!"again")]) (some own)) :
    unmarshalR retryEvent ([⟨b!"Note", some b!"old"⟩, ⟨b!"Retry.Max", none⟩] ++ own ++ [⟨b!"Z", none⟩]) =
      some (.struct [.ptr (.scalar (.int (-3))), .scalar (.string b!"again")], none) :=
  pointers_survive_partial S retryEvent _ _ rfl (by decide) rfl (by decide) (by decide) _
    (.cons (.pointer (by decide) (by decide) (by decide)) (.cons (.value (by decide)) .nil)) own hm _ _ (by decide)

/-- **C103** for pointers at any depth: an event whose fields are values without pointers, pointers to booleans, numbers and strings, maps
and non-empty sequences of such pointers, and structs of such fields, nested to any depth, is read back, also among other annotations, wherever these are, as long as their keys do not
clash with the names of its fields. -/
theorem nested_pointers_survive_partial (S : Texts) (E : RichEvent) (ns : List Bytes) (ts : List RType) (ht : E.type = .struct ns ts)
    (vs : List RVal) (hs : Survives (.struct ns ts) (.struct vs)) (hrec : ∀ n ∈ ns, ¬ schemaPrefix <+: n) (own : List Annotation)
    (hm : MarshalsR S E (.struct vs) (some own)) (as : List Annotation) (hin : ∀ a ∈ own, a ∈ as)
    (hout : ∀ a ∈ as, a ∈ own ∨ ∀ n ∈ ns, clash n a.key = false) :
    ∃ v, unmarshalR E as = some (v, none) ∧ (RVal.struct vs).Same v :=
  nested_event_reads S E ns ts ht vs hs hrec own hm as hin hout

/-- An event `struct{ Id int; Opts struct{ Max *int; Tags map[string]string }; Path []*string; Sizes map[string]*bool }`. -/
def taskEvent : RichEvent :=
  { schema := b!"job"
    type := .struct [b!"Id", b!"Opts", b!"Path", b!"Sizes"] [.scalar false (.int 64),
      .struct [b!"Max", b!"Tags"] [.ptr (.scalar false (.int 64)), .map true (.scalar false .string)], .slice (.ptr (.scalar false .string)),
      .map true (.ptr (.scalar false .bool))] }

/-- An event with a pointer in a struct inside it. -/
def taskValue : List RVal :=
  [.scalar (.int 7), .struct [.ptr (.scalar (.int (-3))), .map [b!"a", b!"b"] [.scalar (.string b!"x"), .scalar (.string [])]],
    .seq [.ptr (.scalar (.string b!"p")), .ptr (.scalar (.string b!"q"))], .map [b!"s"] [.ptr (.scalar (.bool true))]]

theorem task_survives : Survives taskEvent.type (.struct taskValue) := by
  refine .struct rfl rfl (by decide) ?_ ?_
  · intro i t v h1 h2
    match i with
    | 0 => cases h1; cases h2; exact .value (t := .scalar false (.int 64)) (v := .scalar (.int 7)) (by decide) (by decide) (by decide)
    | 1 =>
      cases h1; cases h2
      refine .struct rfl rfl (by decide) ?_ (by simp)
      intro i t v h1 h2
      match i with
      | 0 => cases h1; cases h2; exact .pointer (by decide) (by decide) (by decide)
      | 1 =>
        cases h1; cases h2
        exact .value (t := .map .string) (v := .map [(b!"a", .string b!"x"), (b!"b", .string [])]) (by decide) (by decide) (by decide)
      | i + 2 => simp at h1
    | 2 => cases h1; cases h2; exact .slice (s := .string) (xs := [.string b!"p", .string b!"q"]) (by decide) (by simp) (by decide) (by decide)
    | 3 => cases h1; cases h2; exact .pointers (s := .bool) (m := [(b!"s", .bool true)]) (by decide) (by decide) (by decide)
    | i + 4 => simp at h1
  · intro ws h
    simp only [taskValue, List.mem_cons, RVal.struct.injEq, reduceCtorEq, List.not_mem_nil, or_false, false_or] at h
    subst h
    exact .struct (List.mem_cons_self ..) (.ptr _)

/-- The annotations of the event, in one of the orders, around those of another. -/
example (S : Texts) : ∃ v, unmarshalR taskEvent [⟨b!"Opts.Tags.b", some []⟩, ⟨b!"Id", some b!"7"⟩, ⟨b!"Name", some b!"n"⟩,
      ⟨b!"Opts.Max", some b!"-3"⟩, ⟨b!"Opts.Tags.a", some b!"x"⟩, ⟨b!"Path.1", some b!"q"⟩, ⟨b!"Path.0", some b!"p"⟩, ⟨b!"Sizes.s", some b!"true"⟩, ⟨b!"_schema:job", none⟩] = some (v, none) ∧
    (RVal.struct taskValue).Same v := by
  refine nested_pointers_survive_partial S taskEvent _ _ rfl taskValue task_survives (by decide)
    [⟨b!"Id", some b!"7"⟩, ⟨b!"Opts.Max", some b!"-3"⟩, ⟨b!"Opts.Tags.a", some b!"x"⟩, ⟨b!"Opts.Tags.b", some []⟩, ⟨b!"Path.0", some b!"p"⟩,
      ⟨b!"Path.1", some b!"q"⟩, ⟨b!"Sizes.s", some b!"true"⟩,
      ⟨b!"_schema:job", none⟩] ?_ _ (by decide) (by decide)
  exact ⟨[(b!"Id", b!"7"), (b!"Opts.Max", b!"-3"), (b!"Opts.Tags.a", b!"x"), (b!"Opts.Tags.b", []), (b!"Path.0", b!"p"),
    (b!"Path.1", b!"q"), (b!"Sizes.s", b!"true")], List.Perm.refl _, rfl⟩

/-- An event `struct{ At *time.Time }`. -/
def deadlineEvent : RichEvent := { schema := b!"deadline", type := .struct [b!"At"] [.ptr (.scalar false .time)] }

/-- A pointer to a `time.Time` is lost without an error: it is read back as nil. -/
theorem pointer_to_time_is_lost (S : Texts) (t : GoTime) (own : List Annotation)
    (hm : MarshalsR S deadlineEvent (.struct [.ptr (.scalar (.time t))]) (some own)) :
    unmarshalR deadlineEvent own = some (.struct [.nil], none) := by
  obtain ⟨p, hp, h⟩ := hm
  have := List.perm_singleton.1 hp
  subst this
  cases h
  rfl

/-- An event `struct{ A int; B *int }`. -/
def pairEvent : RichEvent := { schema := b!"pair", type := .struct [b!"A", b!"B"] [.scalar false (.int 64), .ptr (.scalar false (.int 64))] }

/-- If a field cannot be read, the pointers after it stay nil, whatever was recorded for them. -/
theorem pointer_after_bad_field_is_nil (text : Option Bytes) :
    unmarshalR pairEvent [⟨b!"A", some b!"x"⟩, ⟨b!"B", text⟩, ⟨b!"_schema:pair", none⟩] = some (.struct [.scalar (.int 0), .nil], none) := by
  rfl
/-- An event `struct{ From *struct{ Host string } }`. -/
def hopEvent : RichEvent :=
  { schema := b!"hop", type := .struct [b!"From"] [.ptr (.struct [b!"Host"] [.scalar false .string])] }

/-- An event with a pointer to a struct is recorded, and makes `UnmarshalEvent` and `UnmarshalEvents` panic. -/
theorem pointer_to_struct_panics (S : Texts) (host : Bytes) :
    MarshalsR S hopEvent (.struct [.ptr (.struct [.scalar (.string host)])])
      (some [⟨b!"From.Host", some host⟩, ⟨b!"_schema:hop", none⟩]) ∧
    unmarshalR hopEvent [⟨b!"From.Host", some host⟩, ⟨b!"_schema:hop", none⟩] = none :=
  ⟨⟨[(b!"From.Host", host)], List.Perm.refl _, rfl⟩, rfl⟩

/-- An event `struct{ Err error }`. -/
def failEvent : RichEvent := { schema := b!"fail", type := .struct [b!"Err"] [.iface] }

/-- An event with a field of an interface type is recorded, even with a nil interface, and makes reading panic. -/
theorem interface_panics (S : Texts) :
    MarshalsR S failEvent (.struct [.nil]) (some [⟨b!"Err", some b!"<nil>"⟩, ⟨b!"_schema:fail", none⟩]) ∧
    unmarshalR failEvent [⟨b!"Err", some b!"<nil>"⟩, ⟨b!"_schema:fail", none⟩] = none :=
  ⟨⟨[(b!"Err", b!"<nil>")], List.Perm.refl _, rfl⟩, rfl⟩

/-- An event `struct{ A string }` whose type has a `String` method. -/
def chattyEvent : RichEvent := { schema := b!"chatty", type := .named b!"Chatty" (.struct [b!"A"] [.scalar false .string]) }

/-- An event type with a `String` method is recorded as the text of `String` under an empty key, and all of its fields are read back as
zero, without an error. -/
theorem stringer_event_is_lost (S : Texts) (v : RVal) (own : List Annotation) (hm : MarshalsR S chattyEvent v (some own)) :
    own = [⟨[], some (S.named b!"Chatty" v)⟩, ⟨b!"_schema:chatty", none⟩] ∧
    unmarshalR chattyEvent own = some (.struct [.scalar (.string [])], none) := by
  have hf : flattenR S chattyEvent.type [] v = some [([], S.named b!"Chatty" v)] := by simp [chattyEvent, flattenR]
  rw [MarshalsR, hf] at hm
  obtain ⟨p, hp, h⟩ := hm
  have := List.perm_singleton.1 hp
  subst this
  cases h
  exact ⟨rfl, rfl⟩

/-- An event `struct{ State Level; Text string }`, where `type Level int` has a `String` method. -/
def levelEvent : RichEvent :=
  { schema := b!"level",
    type := .struct [b!"State", b!"Text"] [.named b!"Level" (.scalar false (.int 64)), .scalar false .string] }

/-- A field of a number type with a `String` method is recorded as the text of `String`.  If this is a word, the field and those after it
are read back as zero, without an error. -/
theorem stringer_number_is_lost (S : Texts) (n : Int) (hS : S.named b!"Level" (.scalar (.int n)) = b!"up") (text : Bytes) :
    MarshalsR S levelEvent (.struct [.scalar (.int n), .scalar (.string text)])
      (some [⟨b!"State", some b!"up"⟩, ⟨b!"Text", some text⟩, ⟨b!"_schema:level", none⟩]) ∧
    unmarshalR levelEvent [⟨b!"State", some b!"up"⟩, ⟨b!"Text", some text⟩, ⟨b!"_schema:level", none⟩] =
      some (.struct [.scalar (.int 0), .scalar (.string [])], none) := by
  refine ⟨⟨[(b!"State", b!"up"), (b!"Text", text)], ?_, rfl⟩, rfl⟩
  rw [← hS]
  exact List.Perm.refl _

/-- If it is a number, reading panics. -/
theorem stringer_number_panics (S : Texts) (n : Int) (hS : S.named b!"Level" (.scalar (.int n)) = b!"3") (text : Bytes) :
    MarshalsR S levelEvent (.struct [.scalar (.int n), .scalar (.string text)])
      (some [⟨b!"State", some b!"3"⟩, ⟨b!"Text", some text⟩, ⟨b!"_schema:level", none⟩]) ∧
    unmarshalR levelEvent [⟨b!"State", some b!"3"⟩, ⟨b!"Text", some text⟩, ⟨b!"_schema:level", none⟩] = none := by
  refine ⟨⟨[(b!"State", b!"3"), (b!"Text", text)], ?_, rfl⟩, rfl⟩
  rw [← hS]
  exact List.Perm.refl _

/-- **C103 is false**. -/
theorem recorded_events_not_read : ¬ RecordedEventsRead := by
  intro h
  have h1 := pointer_to_struct_panics ⟨fun _ => [], fun _ => [], fun _ _ => [], fun _ _ => []⟩ b!"a"
  have h2 := h _ _ _ _ _ _ (show hopEvent.type = _ from rfl) (by decide) rfl rfl (by decide) (by decide) h1.1
  rw [h1.2] at h2
  cases h2

/-! ## C104: reading annotations that did not come from the event -/

/-- The full statement of **C104**: no annotations make reading an event panic. -/
def ReadingNeverPanics : Prop := ∀ (E : RichEvent) (as : List Annotation), unmarshalR E as ≠ none

/-- An event `struct{ Tags []string }`. -/
def taggedEvent : RichEvent := { schema := b!"tagged", type := .struct [b!"Tags"] [.slice (.scalar false .string)] }

/-- An annotation with a negative index makes reading an event with a slice panic. -/
theorem negative_index_panics (x : Bytes) :
    unmarshalR taggedEvent [⟨b!"_schema:tagged", none⟩, ⟨b!"Tags.-1", some x⟩] = none := by rfl

/-- So does an index that is not less than the length of an array. -/
theorem large_index_panics (x : Bytes) :
    unmarshalR ⟨b!"pair", .struct [b!"Ends"] [.array 2 (.scalar false .string)]⟩
      [⟨b!"_schema:pair", none⟩, ⟨b!"Ends.2", some x⟩] = none := by rfl

/-- **C104 is false**. -/
theorem reading_can_panic : ¬ ReadingNeverPanics := fun h => h _ _ (negative_index_panics b!"x")

/-- **C104** for events without sequences, interfaces, defined scalars, and pointers to anything but scalars. -/
theorem steady_reading_partial (E : RichEvent) (h : Steady E.type) (as : List Annotation) : unmarshalR E as ≠ none := by
  unfold unmarshalR
  split
  · simp
  · simp [steady_reads h]

example : Steady retryEvent.type :=
  .struct _ _ (by
    intro t ht
    rcases List.mem_cons.1 ht with rfl | ht
    · exact .pointer _
    · rw [List.mem_singleton.1 ht]
      exact .scalar _)

/-- **C104** for `UnmarshalEvents`: if all registered event types are of this kind, no annotations make it panic. -/
theorem steady_registry_partial (reg : Registry) (h : ∀ s E, AMap.get reg s = some E → Steady E.type.rich) (as : List Annotation) :
    unmarshalEvents reg as ≠ none :=
  steady_loop reg as h _ _

theorem library_steady (E : EventType) (h : E ∈ libraryEvents) : Steady E.type.rich := by
  have hs : ∀ s : ScalarTy, Steady (.scalar false s) := Steady.scalar
  have hm : ∀ s : ScalarTy, Steady (.map true (.scalar false s)) := Steady.map
  have all : ∀ ts : List RType, List.Forall Steady ts → ∀ t ∈ ts, Steady t := fun ts h => List.forall_iff_forall_mem.1 h
  have hreq : Steady requestInfoType.rich := .struct _ _ (all _ (by simp [richTypes, GType.rich, tString, tInt, hs, hm]))
  have hresp : Steady responseInfoType.rich := .struct _ _ (all _ (by simp [richTypes, GType.rich, tInt, hs, hm]))
  simp only [libraryEvents, List.mem_cons, List.not_mem_nil, or_false] at h
  rcases h with rfl | rfl | rfl | rfl | rfl | rfl | rfl | rfl <;>
    exact .struct _ _ (all _ (by simp [richTypes, GType.rich, tString, tTime, hs, hreq, hresp]))

/-- **C104** for the events of appdash, httptrace and sqltrace: whatever annotations the clients of a collector send, `UnmarshalEvents`
does not panic. -/
theorem library_reading_partial (reg : Registry) (hreg : registerAll libraryEvents [] = some reg) (as : List Annotation) :
    unmarshalEvents reg as ≠ none := by
  refine steady_registry_partial reg (fun s E hE => ?_) as
  obtain ⟨reg', h1, h2, h3⟩ := register_found libraryEvents [] (by decide) (by decide) (fun _ _ => rfl)
  rw [hreg] at h1
  cases h1
  by_cases h : ∃ F ∈ libraryEvents, F.schema = s
  · obtain ⟨F, hF, rfl⟩ := h
    rw [h2 F hF] at hE
    cases hE
    exact library_steady _ hF
  · rw [h3 s fun F hF e => h ⟨F, hF, e⟩] at hE
    cases hE

example : ∃ reg, registerAll libraryEvents [] = some reg := ⟨_, rfl⟩

end Appdash
