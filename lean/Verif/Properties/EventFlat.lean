import Verif.Proofs.EventFlat

/-!
# C73: events of scalar fields survive among arbitrary annotations
-/

namespace Appdash

/-- **C73**.  An event whose fields are all scalars (numbers, strings, times) is read back exactly, whatever annotations the
span had before, and whatever annotations are added later, as long as those do not have the key of one of its fields; and
whatever the value that it is read into. -/
theorem flat_event_survives (E : EventType) (hr : E.reflective) (ns : List Bytes) (ss : List ScalarTy)
    (ht : E.type = .struct ns (ss.map (GType.scalar false))) (hrec : E.type.isRecord = true) (hn : ns.Nodup)
    (hlen : ns.length = ss.length) (hne : ns ≠ []) (xs : List Scalar)
    (hh : E.type.holds (.struct (xs.map GVal.scalar)) = true) (own : List Annotation)
    (hm : Marshals E (.struct (xs.map GVal.scalar)) (.ok own)) (before after : List Annotation)
    (hafter : ∀ a ∈ after, a.key ∉ ns) (vs : List GVal) (hv : vs.length = xs.length) :
    unmarshalEvent E (before ++ own ++ after) (.struct vs) = some (.struct (xs.map GVal.scalar), none) := by
  have hh' := hh
  rw [ht] at hh'
  have hall : holdsAll (ss.map (GType.scalar false)) (xs.map GVal.scalar) = true := by simpa [GType.holds] using hh'
  obtain ⟨hl, hspec⟩ := holdsAll_spec hall
  simp only [List.length_map] at hl
  refine flat_event_reads E hr ns ss ht hrec hn hlen hne xs hl own hm before after hafter xs hl ?_ vs (by omega)
  intro i s x z h1 h2 h3
  rw [h2] at h3
  cases h3
  have := hspec i (.scalar false s) (.scalar x) (by simp [h1]) (by simp [h2])
  exact parseScalar_text (by simpa [GType.holds] using this)

/-- **C73** for the name, message, log, time span and SQL events of the library. -/
theorem library_flat_event_survives (E : EventType) (hE : E ∈ [spanNameEvent, msgEvent, logEvent, timespanEvent, timespan, sqlEvent])
    (v w : GVal) (hv : E.type.holds v = true) (hw : E.type.holds w = true) (own : List Annotation)
    (hm : Marshals E v (.ok own)) (before after : List Annotation) (hafter : ∀ a ∈ after, a.key ∉ E.type.names) :
    unmarshalEvent E (before ++ own ++ after) w = some (v, none) := by
  have key : ∀ (ns : List Bytes) (ss : List ScalarTy), E.type = .struct ns (ss.map (GType.scalar false)) → E.reflective →
      E.type.isRecord = true → ns.Nodup → ns.length = ss.length → ns ≠ [] →
      unmarshalEvent E (before ++ own ++ after) w = some (v, none) := by
    intro ns ss ht hr hrec hn hlen hne
    have hx : ∀ u : GVal, E.type.holds u = true → ∃ xs : List Scalar, u = .struct (xs.map GVal.scalar) ∧ xs.length = ss.length := by
      intro u hu
      rw [ht] at hu
      cases u with
      | struct us =>
        simp only [GType.holds] at hu
        clear ht hlen
        induction ss generalizing us with
        | nil =>
          cases us with
          | nil => exact ⟨[], rfl, rfl⟩
          | cons _ _ => simp [holdsAll] at hu
        | cons s ss ih =>
          cases us with
          | nil => simp [holdsAll] at hu
          | cons u us =>
            simp only [List.map_cons, holdsAll, Bool.and_eq_true] at hu
            obtain ⟨xs, e, el⟩ := ih us hu.2
            simp only [GVal.struct.injEq] at e
            subst e
            cases u with
            | scalar x => exact ⟨x :: xs, rfl, by simp [el]⟩
            | _ => simp [GType.holds] at hu
      | _ => simp [GType.holds] at hu
    obtain ⟨xs, rfl, hl⟩ := hx v hv
    obtain ⟨ys, rfl, hl'⟩ := hx w hw
    refine flat_event_survives E hr ns ss ht hrec hn hlen hne xs hv own hm before after ?_ _ (by simp [hl, hl'])
    intro a ha
    have := hafter a ha
    rwa [ht] at this
  simp only [List.mem_cons, List.not_mem_nil, or_false] at hE
  rcases hE with rfl | rfl | rfl | rfl | rfl | rfl
  · exact key [b!"Name"] [.string] rfl ⟨rfl, rfl⟩ (by decide) (by decide) rfl (by decide)
  · exact key [b!"Msg"] [.string] rfl ⟨rfl, rfl⟩ (by decide) (by decide) rfl (by decide)
  · exact key [b!"Msg", b!"Time"] [.string, .time] rfl ⟨rfl, rfl⟩ (by decide) (by decide) rfl (by decide)
  · exact key [b!"S", b!"E"] [.time, .time] rfl ⟨rfl, rfl⟩ (by decide) (by decide) rfl (by decide)
  · exact key [b!"Span.Start", b!"Span.End"] [.time, .time] rfl ⟨rfl, rfl⟩ (by decide) (by decide) rfl (by decide)
  · exact key [b!"SQL", b!"Tag", b!"ClientSend", b!"ClientRecv"] [.string, .string, .time, .time] rfl ⟨rfl, rfl⟩
      (by decide) (by decide) rfl (by decide)

/-- A message after a clashing annotation and an earlier message, before an annotation with a longer key. -/
example : unmarshalEvent msgEvent
    ([⟨b!"Msg", some b!"old"⟩, ⟨b!"Ms", none⟩] ++ [⟨b!"Msg", some b!"new"⟩, ⟨b!"_schema:msg", none⟩] ++ [⟨b!"Msg ", none⟩])
    (.struct [.scalar (.string b!"?")]) = some (.struct [.scalar (.string b!"new")], none) :=
  library_flat_event_survives msgEvent (by simp) _ _ rfl rfl _ ⟨[(b!"Msg", b!"new")], List.Perm.refl _, rfl⟩ _ _ (by decide)

/-- The condition on later annotations is needed. -/
theorem later_key_overwrites : unmarshalEvent msgEvent
    ([⟨b!"Msg", some b!"new"⟩, ⟨b!"_schema:msg", none⟩] ++ [⟨b!"Msg", some b!"x"⟩]) (.struct [.scalar (.string [])]) =
      some (.struct [.scalar (.string b!"x")], none) := by
  rfl

end Appdash
