import Verif.Spec.OpenTracingShown
import Verif.Properties.OpenTracing
import Verif.Properties.Event

/-!
# Lemmas about the events of a recorded OpenTracing span
-/

namespace Appdash
open Spec

theorem schemas_nil_of {as : List Annotation} (h : ∀ a ∈ as, ∀ s, a.key ≠ b!"_schema:" ++ s) : schemas as = [] := by
  rw [List.eq_nil_iff_forall_not_mem]
  intro s hs
  obtain ⟨a, ha, hk⟩ := mem_schemas.1 hs
  exact h a ha s hk

theorem not_schema {k : Bytes} (h : schemaPrefix.isPrefixOf k = false) (s : Bytes) : k ≠ b!"_schema:" ++ s := by
  intro e
  have : schemaPrefix.isPrefixOf k = true := isPrefixOf_append.2 ⟨s, e⟩
  rw [h] at this
  cases this

theorem says_keys {k1 k2 : Bytes} {v1 v2 : Option Bytes} {l : List Annotation} (h : l.Perm [⟨k1, v1⟩, ⟨k2, v2⟩]) :
    ∀ a ∈ l, a.key = k1 ∨ a.key = k2 := by
  intro a ha
  have := h.subset ha
  simp only [List.mem_cons, List.not_mem_nil, or_false] at this
  rcases this with rfl | rfl <;> simp

theorem saysLog_schemas {msg : Bytes} {t : GoTime} {as : List Annotation} (h : SaysLog msg t as) : schemas as = [b!"log"] := by
  obtain ⟨l, hl, rfl⟩ := h
  rw [schemas_append, schemas_nil_of (as := l)]
  · decide
  · intro a ha s
    rcases says_keys hl a ha with e | e <;> rw [e] <;> exact not_schema (by decide) s

theorem saysTimes_schemas {s e : GoTime} {as : List Annotation} (h : SaysTimes s e as) : schemas as = [b!"Timespan"] := by
  obtain ⟨l, hl, rfl⟩ := h
  rw [schemas_append, schemas_nil_of (as := l)]
  · decide
  · intro a ha s
    rcases says_keys hl a ha with e | e <;> rw [e] <;> exact not_schema (by decide) s

theorem saysLog_marshals {msg : Bytes} {t : GoTime} {as : List Annotation} (h : SaysLog msg t as) :
    Marshals logEvent (logValue msg t) (.ok as) := by
  obtain ⟨l, hl, rfl⟩ := h
  obtain ⟨kvs, h1, h2⟩ := perm_of_map annotationOf hl (m := [(b!"Msg", msg), (b!"Time", formatTime t)]) rfl
  exact ⟨kvs, h1, by rw [h2]; rfl⟩

theorem saysTimes_marshals {s e : GoTime} {as : List Annotation} (h : SaysTimes s e as) :
    Marshals timespan (timespanValue s e) (.ok as) := by
  obtain ⟨l, hl, rfl⟩ := h
  obtain ⟨kvs, h1, h2⟩ := perm_of_map annotationOf hl (m := [(b!"Span.Start", formatTime s), (b!"Span.End", formatTime e)]) rfl
  exact ⟨kvs, h1, by rw [h2]; rfl⟩

theorem saysName_marshals {name : Bytes} {as : List Annotation} (h : SaysName name as) :
    Marshals spanNameEvent (nameValue name) (.ok as) := by
  cases h
  exact ⟨_, .refl _, rfl⟩

theorem saysLog_keys {msg : Bytes} {t : GoTime} {as : List Annotation} (h : SaysLog msg t as) :
    ∀ a ∈ as, a.key = b!"Msg" ∨ a.key = b!"Time" ∨ a.key = b!"_schema:log" := by
  obtain ⟨l, hl, rfl⟩ := h
  intro a ha
  rcases List.mem_append.1 ha with ha | ha
  · rcases says_keys hl a ha with e | e <;> simp [e]
  · rw [List.mem_singleton.1 ha]; simp

theorem saysTimes_keys {s e : GoTime} {as : List Annotation} (h : SaysTimes s e as) :
    ∀ a ∈ as, a.key = b!"Span.Start" ∨ a.key = b!"Span.End" ∨ a.key = b!"_schema:Timespan" := by
  obtain ⟨l, hl, rfl⟩ := h
  intro a ha
  rcases List.mem_append.1 ha with ha | ha
  · rcases says_keys hl a ha with e | e <;> simp [e]
  · rw [List.mem_singleton.1 ha]; simp

theorem unmarshalLoop_cons {reg : Registry} {as : List Annotation} {E : EventType} {s : Bytes} {v : GVal} (hg : AMap.get reg s = some E)
    (hu : unmarshalEvent E as E.type.zero = some (v, none)) (ss : List Bytes) (evs : List (Bytes × GVal)) :
    unmarshalLoop reg as (s :: ss) evs = unmarshalLoop reg as ss (evs ++ [(s, v)]) := by
  simp [unmarshalLoop, hg, hu]

theorem unmarshalLoop_replicate {reg : Registry} {as : List Annotation} {E : EventType} {s : Bytes} {v : GVal}
    (hg : AMap.get reg s = some E) (hu : unmarshalEvent E as E.type.zero = some (v, none)) (ss : List Bytes) :
    ∀ (n : Nat) (evs : List (Bytes × GVal)),
      unmarshalLoop reg as (List.replicate n s ++ ss) evs = unmarshalLoop reg as ss (evs ++ List.replicate n (s, v)) := by
  intro n
  induction n with
  | zero => intro evs; simp
  | succ n ih =>
    intro evs
    rw [List.replicate_succ, List.cons_append, unmarshalLoop_cons hg hu, ih]
    simp [List.replicate_succ]

theorem schemas_logs {env : OTEnv} {ls : List OTLog} {logs : List (List Annotation)}
    (h : List.Forall₂ (fun l as => ∃ text, LogText env.json l.fields.flatten text ∧ SaysLog text l.time as) ls logs) :
    schemas logs.flatten = List.replicate ls.length b!"log" := by
  induction h with
  | nil => rfl
  | cons h _ ih =>
    obtain ⟨text, -, h⟩ := h
    rw [List.flatten_cons, schemas_append, saysLog_schemas h, ih]
    rfl

theorem logs_keys {env : OTEnv} {ls : List OTLog} {logs : List (List Annotation)}
    (h : List.Forall₂ (fun l as => ∃ text, LogText env.json l.fields.flatten text ∧ SaysLog text l.time as) ls logs) :
    ∀ a ∈ logs.flatten, a.key = b!"Msg" ∨ a.key = b!"Time" ∨ a.key = b!"_schema:log" := by
  induction h with
  | nil => intro a ha; cases ha
  | cons h _ ih =>
    obtain ⟨text, -, h⟩ := h
    intro a ha
    rw [List.flatten_cons, List.mem_append] at ha
    rcases ha with ha | ha
    · exact saysLog_keys h a ha
    · exact ih a ha

theorem tags_keys {tags : AMap Bytes Bytes} {calls : List (List Annotation)} (h : calls.Perm (tags.map fun e => [⟨e.1, some e.2⟩])) :
    ∀ a ∈ calls.flatten, ∃ e ∈ tags, a.key = e.1 := by
  intro a ha
  obtain ⟨c, hc, hac⟩ := List.mem_flatten.1 ha
  obtain ⟨e, he, rfl⟩ := List.mem_map.1 (h.subset hc)
  rw [List.mem_singleton.1 hac]
  exact ⟨e, he, rfl⟩

theorem forall₂_snoc {α β : Type} {R : α → β → Prop} {l : α} : ∀ {ls : List α} {m : List β}, List.Forall₂ R (ls ++ [l]) m →
    ∃ ms x, m = ms ++ [x] ∧ List.Forall₂ R ls ms ∧ R l x := by
  intro ls
  induction ls with
  | nil =>
    intro m h
    cases h with
    | cons h1 h2 => cases h2; exact ⟨[], _, rfl, .nil, h1⟩
  | cons a ls ih =>
    intro m h
    cases h with
    | cons h1 h2 =>
      obtain ⟨ms, x, rfl, h3, h4⟩ := ih h2
      exact ⟨_ :: ms, x, rfl, .cons h1 h3, h4⟩

/-- What `UnmarshalEvents` returns for the record of a span, if `w` is the value of the log event that is read. -/
theorem shown_events {reg : Registry} (hreg : registerAll libraryEvents [] = some reg) {env : OTEnv} {sp : RawSpan}
    {as : List Annotation} (h : ShowsSpan env sp as) (hp : PlainTags sp) (ht : TimesHold env sp) :
    ∃ w, unmarshalEvents reg as = some ((b!"name", nameValue sp.operation) :: List.replicate sp.logs.length (b!"log", w) ++
        [(b!"Timespan", timespanValue sp.start (env.add sp.start sp.duration))], none) ∧
      ∀ ls l, sp.logs = ls ++ [l] → ∃ text, LogText env.json l.fields.flatten text ∧ w = logValue text l.time := by
  obtain ⟨reg', hreg', hget⟩ := library_registers
  rw [hreg] at hreg'
  cases Option.some.inj hreg'
  obtain ⟨calls, ⟨name, times, logs, tags, bag, rfl, hn, hl, htg, hb, htm⟩, rfl⟩ := h
  have hplain : ∀ a ∈ tags.flatten ++ bag.flatten, ¬ Reserved a.key := by
    intro a ha
    rcases List.mem_append.1 ha with ha | ha
    · obtain ⟨e, he, k⟩ := tags_keys htg a ha
      rw [k]; exact hp e (.inl he)
    · obtain ⟨e, he, k⟩ := tags_keys hb a ha
      rw [k]; exact hp e (.inr he)
  have e : ([name] ++ logs ++ tags ++ bag ++ [times]).flatten = name ++ (logs.flatten ++ ((tags.flatten ++ bag.flatten) ++ times)) := by
    simp
  rw [e]
  generalize tags.flatten ++ bag.flatten = tb at hplain
  have hs : schemas (name ++ (logs.flatten ++ (tb ++ times))) = b!"name" :: (List.replicate sp.logs.length b!"log" ++ [b!"Timespan"]) := by
    rw [schemas_append, schemas_append, schemas_append, schemas_logs hl, saysTimes_schemas htm,
      schemas_nil_of (as := tb) fun a ha s k => hplain a ha (.inr (.inr (.inr ⟨s, k⟩)))]
    cases hn
    rfl
  have hname : unmarshalEvent spanNameEvent (name ++ (logs.flatten ++ (tb ++ times))) spanNameEvent.type.zero =
      some (nameValue sp.operation, none) := by
    refine library_flat_event_survives spanNameEvent (by simp) _ _ (by rfl) (by decide) name (saysName_marshals hn) [] _ ?_
    intro a ha
    have : a.key ≠ b!"Name" := by
      rcases List.mem_append.1 ha with ha | ha
      · rcases logs_keys hl a ha with k | k | k <;> rw [k] <;> decide
      · rcases List.mem_append.1 ha with ha | ha
        · exact fun k => hplain a ha (.inl k)
        · rcases saysTimes_keys htm a ha with k | k | k <;> rw [k] <;> decide
    simpa [spanNameEvent, GType.names] using this
  have htimes : unmarshalEvent timespan (name ++ (logs.flatten ++ (tb ++ times))) timespan.type.zero =
      some (timespanValue sp.start (env.add sp.start sp.duration), none) := by
    have := library_flat_event_survives timespan (by simp) (timespanValue sp.start (env.add sp.start sp.duration)) timespan.type.zero
      (by simp [timespanValue, timespan, GType.holds, holdsAll, tTime, ht.1, ht.2.1]) (by decide) times (saysTimes_marshals htm)
      (name ++ (logs.flatten ++ tb)) [] (by simp)
    simpa using this
  obtain ⟨w, hw, hlast⟩ : ∃ w, (sp.logs ≠ [] → unmarshalEvent logEvent (name ++ (logs.flatten ++ (tb ++ times))) logEvent.type.zero =
      some (w, none)) ∧ ∀ ls l, sp.logs = ls ++ [l] → ∃ text, LogText env.json l.fields.flatten text ∧ w = logValue text l.time := by
    rcases List.eq_nil_or_concat sp.logs with h0 | ⟨ls, l, h0⟩
    · exact ⟨logEvent.type.zero, fun h => absurd h0 h, fun ls l h1 => by rw [h0] at h1; simp at h1⟩
    · rw [List.concat_eq_append] at h0
      rw [h0] at hl
      obtain ⟨logs0, la, rfl, h2, text, h3, h4⟩ := forall₂_snoc hl
      refine ⟨logValue text l.time, fun _ => ?_, fun ls' l' h1 => ?_⟩
      · have htime := ht.2.2 l (by rw [h0]; simp)
        have := library_flat_event_survives logEvent (by simp) (logValue text l.time) logEvent.type.zero
          (by simp [logValue, gString, logEvent, GType.holds, holdsAll, tTime, tString, htime,
            show ∀ b, ScalarTy.string.holds (.string b) = true from fun _ => rfl]) (by decide) la
          (saysLog_marshals h4) (name ++ logs0.flatten) (tb ++ times) (by
            intro a ha
            have : a.key ≠ b!"Msg" ∧ a.key ≠ b!"Time" := by
              rcases List.mem_append.1 ha with ha | ha
              · exact ⟨fun k => hplain a ha (.inr (.inl k)), fun k => hplain a ha (.inr (.inr (.inl k)))⟩
              · rcases saysTimes_keys htm a ha with k | k | k <;> rw [k] <;> decide
            simpa [logEvent, GType.names] using this)
        simpa using this
      · rw [h0] at h1
        obtain ⟨-, h1⟩ := List.append_inj' h1 rfl
        cases h1
        exact ⟨text, h3, rfl⟩
  refine ⟨w, ?_, hlast⟩
  rw [unmarshalEvents, hs, unmarshalLoop_cons (s := b!"name") (hget spanNameEvent (by simp [libraryEvents])) hname]
  by_cases h0 : sp.logs = []
  · rw [h0]
    simp only [List.length_nil, List.replicate_zero, List.nil_append]
    rw [unmarshalLoop_cons (s := b!"Timespan") (hget timespan (by simp [libraryEvents])) htimes]
    rfl
  · rw [unmarshalLoop_replicate (s := b!"log") (hget logEvent (by simp [libraryEvents])) (hw h0),
      unmarshalLoop_cons (s := b!"Timespan") (hget timespan (by simp [libraryEvents])) htimes]
    simp [unmarshalLoop]

end Appdash
