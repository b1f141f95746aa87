import Verif.Proofs.EventSize
import Verif.Properties.Numerals

/-!
# Property C139: reading events takes memory in proportion to the annotations
-/

namespace Appdash

open Spec

/-- **C139**, as an operator would expect it: what is read from a span, with the events of the library registered, takes memory in proportion
to the size of the span's annotations. -/
def ProportionalReading : Prop :=
  ∀ reg : Registry, registerAll libraryEvents [] = some reg →
    ∃ c : Nat, ∀ (as : List Annotation) (evs : List (Bytes × GVal)) (err : Option EventErr),
      unmarshalEvents reg as = some (evs, err) → eventsSize evs ≤ c * (annotationsSize as + 1)

/-- **C139** (one event).  Reading into an event without slices adds at most the size of the annotations for each field. -/
theorem event_size_partial {E : EventType} (hu : E.unmarshaler = none) (hf : sliceFree E.type = true) {as : List Annotation} {v v' : GVal}
    {err : Option EventErr} (h : unmarshalEvent E as v = some (v', err)) :
    valueSize v' ≤ valueSize v + fieldCount E.type * annotationsSize as :=
  unmarshalEvent_size hu hf h

theorem library_event_size {reg : Registry} (hreg : registerAll libraryEvents [] = some reg) (as : List Annotation) :
    ∀ (s : Bytes) (E : EventType), AMap.get reg s = some E → ∀ v err, unmarshalEvent E as E.type.zero = some (v, err) →
      valueSize v ≤ 14 * annotationsSize as := by
  intro s E hE v err h
  have hmem := (registerAll_get libraryEvents [] reg hreg s E hE).resolve_left (by simp [AMap.get]) |>.1
  have h1 : E.unmarshaler = none ∧ sliceFree E.type = true ∧ valueSize E.type.zero = 0 ∧ fieldCount E.type ≤ 14 := by
    simp only [libraryEvents, List.mem_cons, List.not_mem_nil, or_false] at hmem
    rcases hmem with rfl | rfl | rfl | rfl | rfl | rfl | rfl | rfl <;> exact ⟨rfl, rfl, rfl, by decide⟩
  have h2 := event_size_partial h1.1 h1.2.1 h
  rw [h1.2.2.1] at h2
  have h3 := Nat.mul_le_mul_right (annotationsSize as) h1.2.2.2
  omega

/-- **C139** (all events).  The events of a span take at most fourteen times the size of the annotations for every annotation that names a
schema. -/
theorem events_size_partial {reg : Registry} (hreg : registerAll libraryEvents [] = some reg) {as : List Annotation}
    {evs : List (Bytes × GVal)} {err : Option EventErr} (h : unmarshalEvents reg as = some (evs, err)) :
    eventsSize evs ≤ (as.filter fun a => b!"_schema:".isPrefixOf a.key).length * (1 + 14 * annotationsSize as) := by
  have h1 := unmarshalLoop_size (library_event_size hreg as) (schemas as) [] evs err h
  have h2 : (schemas as).length = (as.filter fun a => b!"_schema:".isPrefixOf a.key).length := by
    have := congrArg List.length (schemas_keys as)
    rw [List.length_map, List.filter_map, List.length_map] at this
    exact this
  have h3 := List.length_filter_le (fun s => (AMap.get reg s).isSome) (schemas as)
  rw [h2] at h3
  have h4 := Nat.mul_le_mul_right (1 + 14 * annotationsSize as) h3
  have h5 : eventsSize [] = 0 := rfl
  omega

/-- **C139** (one event of each type).  If no schema is named twice, as on a span that one event of each type was recorded on, then what is
read takes memory in proportion to the annotations. -/
theorem proportional_reading_partial {reg : Registry} (hreg : registerAll libraryEvents [] = some reg) {as : List Annotation}
    (hn : ((as.map Annotation.key).filter fun k => b!"_schema:".isPrefixOf k).Nodup)
    {evs : List (Bytes × GVal)} {err : Option EventErr} (h : unmarshalEvents reg as = some (evs, err)) :
    eventsSize evs ≤ 112 * (annotationsSize as + 1) := by
  have h1 := unmarshalLoop_size (library_event_size hreg as) (schemas as) [] evs err h
  have hnod : (schemas as).Nodup := by
    rw [← schemas_keys] at hn
    exact List.Nodup.of_map _ hn
  have h2 : ((schemas as).filter fun s => (AMap.get reg s).isSome).length ≤ 8 := by
    refine Nat.le_trans (List.Subperm.length_le (List.subperm_of_subset (hnod.filter _) ?_ (l₂ := libraryEvents.map EventType.schema))) (by decide)
    intro s hs
    have h3 := (List.mem_filter.1 hs).2
    obtain ⟨E, hE⟩ := Option.isSome_iff_exists.1 h3
    obtain ⟨h4, rfl⟩ := (registerAll_get libraryEvents [] reg hreg s E hE).resolve_left (by simp [AMap.get])
    exact List.mem_map_of_mem h4
  have h4 := Nat.mul_le_mul_right (1 + 14 * annotationsSize as) h2
  have h5 : eventsSize [] = 0 := rfl
  omega

/-- A message of `n` bytes whose schema is named `n` times. -/
def repeatedMessage (n : Nat) : List Annotation :=
  ⟨b!"Msg", some (List.replicate n 65)⟩ :: List.replicate n ⟨b!"_schema:msg", none⟩

theorem repeatedMessage_size (n : Nat) : annotationsSize (repeatedMessage n) = 4 + 13 * n := by
  simp [annotationsSize, repeatedMessage]
  omega

/-- The message is returned once for each time that its schema is named. -/
theorem repeatedMessage_read {reg : Registry} (hreg : registerAll libraryEvents [] = some reg) (n : Nat) (hn : n ≠ 0) :
    unmarshalEvents reg (repeatedMessage n) =
      some (List.replicate n (b!"msg", .struct [.scalar (.string (List.replicate n 65))]), none) := by
  have hone : unmarshalEvent msgEvent (repeatedMessage n) msgEvent.type.zero =
      some (.struct [.scalar (.string (List.replicate n 65))], none) := by
    have hlast : LastValue (repeatedMessage n) b!"Msg" (List.replicate n 65) := by
      refine ⟨[], _, _, rfl, rfl, rfl, ?_⟩
      intro b hb
      rw [(List.mem_replicate.1 hb).2]
      decide
    obtain ⟨ws, h1, h2, h3⟩ := annotated_fields_read_partial msgEvent [b!"Msg"] [.string] ⟨rfl, rfl⟩ rfl (by simp) rfl (by simp)
      (by simp [ScalarTy.goWidth]) (repeatedMessage n)
      ⟨⟨b!"_schema:msg", none⟩, List.mem_cons_of_mem _ (List.mem_replicate.2 ⟨hn, rfl⟩), rfl⟩ [List.replicate n 65]
      (.cons hlast .nil) [.scalar (.string [])] rfl
    obtain ⟨h4, -⟩ := h3 0 _ _ _ rfl rfl rfl
    obtain ⟨x, hx, h5⟩ := h4 (by
      intro j m t z e1 e2 e3 _
      cases j with
      | zero =>
        simp only [List.getElem?_cons_zero, Option.some.injEq] at e1 e2 e3
        subst e1 e2 e3
        exact ⟨.string _, rfl⟩
      | succ j => simp at e1)
    match ws, h2, h5 with
    | [w], _, h5 =>
      simp only [List.getElem?_cons_zero, Option.some.injEq] at h5
      subst h5
      cases x <;> simp only [ReadsAs] at hx
      subst hx
      exact h1
  have hget : AMap.get reg b!"msg" = some msgEvent := by
    obtain rfl : reg = _ := (Option.some.inj (hreg.symm.trans (rfl : registerAll libraryEvents [] = some _)))
    rfl
  have hsch : ∀ k, schemas (List.replicate k ⟨b!"_schema:msg", none⟩) = List.replicate k b!"msg" := by
    intro k
    induction k with
    | zero => rfl
    | succ k ih => rw [List.replicate_succ, schemas, ih]; rfl
  have hsch' : schemas (repeatedMessage n) = List.replicate n b!"msg" := by
    rw [repeatedMessage, schemas, if_neg (show ¬ schemaPrefix.isPrefixOf b!"Msg" = true by decide), hsch]
  have hloop : ∀ k evs, unmarshalLoop reg (repeatedMessage n) (List.replicate k b!"msg") evs =
      some (evs ++ List.replicate k (b!"msg", .struct [.scalar (.string (List.replicate n 65))]), none) := by
    intro k
    induction k with
    | zero => intro evs; simp [unmarshalLoop]
    | succ k ih =>
      intro evs
      rw [List.replicate_succ, unmarshalLoop, hget]
      dsimp only
      rw [hone]
      dsimp only
      rw [ih, List.replicate_succ]
      simp
  rw [unmarshalEvents, hsch', hloop]
  rfl

/-- **C139** fails: the memory can grow with the square of the size of the annotations. -/
theorem not_proportional_reading : ¬ ProportionalReading := by
  intro H
  obtain ⟨c, hc⟩ := H _ rfl
  have h := hc (repeatedMessage (13 * c + 5)) _ _ (repeatedMessage_read rfl (13 * c + 5) (by omega))
  rw [repeatedMessage_size] at h
  have h2 : eventsSize (List.replicate (13 * c + 5) (b!"msg", .struct [.scalar (.string (List.replicate (13 * c + 5) 65))])) =
      (13 * c + 5) * (1 + (13 * c + 5)) := by
    simp [eventsSize, valueSize, valuesSize, scalarSize]
  rw [h2] at h
  grind

/-- An event with a slice of numbers. -/
def numbersEvent : EventType := { schema := b!"S", type := .struct [b!"Xs"] [.slice (.int 64)] }

theorem formatDecAux_length : ∀ (fuel n k : Nat), n < 10 ^ (k + 1) → (formatDecAux fuel n).length ≤ k + 1
  | 0, _, _, _ => by simp [formatDecAux]
  | fuel + 1, n, k, h => by
    rw [formatDecAux]
    split
    · simp
    · cases k with
      | zero => omega
      | succ k =>
        have := formatDecAux_length fuel (n / 10) k (by rw [Nat.pow_succ] at h; omega)
        simp
        omega

/-- **C139** fails for events with slices: a short annotation makes a slice of any length that fits into an `int`. -/
theorem slice_of_any_length (n : Nat) (hn : n < 2 ^ 63) : ∃ as v, annotationsSize as ≤ 40 ∧
    unmarshalEvent numbersEvent as numbersEvent.type.zero = some (v, none) ∧ n < valueSize v := by
  refine ⟨[⟨b!"Xs." ++ formatInt n, some b!"1"⟩, ⟨b!"_schema:S", none⟩],
    .struct [.seq ((List.replicate (n + 1) (.int 0)).set n (.int 1))], ?_, ?_, ?_⟩
  · have h := formatDecAux_length (n + 1) n 18 (by omega)
    have : (formatInt n).length = (formatDecAux (n + 1) n).length := rfl
    simp only [annotationsSize, List.map_cons, List.map_nil, List.sum_cons, List.sum_nil, List.length_append, Option.getD_some,
      Option.getD_none, List.length_cons, List.length_nil]
    omega
  · have hp := parseIntDec_formatInt (n : Int) (by omega) (by omega)
    generalize formatInt (n : Int) = d at hp
    have hkv : mapToKVs (stringMap [⟨b!"Xs." ++ d, some b!"1"⟩, ⟨b!"_schema:S", none⟩]) =
        [(b!"Xs." ++ d, b!"1"), (b!"_schema:S", [])] := by
      have h1 : b!"Xs." ++ d ≠ b!"_schema:S" := by
        intro h
        injection h with h
        exact absurd h (by decide)
      have h2 : b!"Xs." ++ d < b!"_schema:S" := List.Lex.rel (by decide)
      have h3 : stringMap [⟨b!"Xs." ++ d, some b!"1"⟩, ⟨b!"_schema:S", none⟩] = [(b!"Xs." ++ d, b!"1"), (b!"_schema:S", [])] := by
        simp only [stringMap, List.foldl_cons, List.foldl_nil, AMap.set, if_neg h1]
        rfl
      rw [h3, mapToKVs]
      simp only [sortKV, insertKV, if_pos h2]
    have hs : schemas [⟨b!"Xs." ++ d, some b!"1"⟩, ⟨b!"_schema:S", none⟩] = [b!"S"] := rfl
    unfold unmarshalEvent
    rw [hs, hkv]
    have hu : unflattenSeq true (.int 64) b!"Xs" (.seq []) [(b!"Xs." ++ d, b!"1"), (b!"_schema:S", [])] =
        some (.seq ((List.replicate (n + 1) (.int 0)).set n (.int 1)), [(b!"_schema:S", [])], false) := by
      have h1 : seqLoop (b!"Xs" ++ [46]) [(b!"Xs." ++ d, b!"1"), (b!"_schema:S", [])] =
          ([((n : Int), b!"1")], [(b!"_schema:S", [])], false) := by
        have hp' : parseIntDec (List.drop (List.length (b!"Xs" ++ [46])) ((b!"Xs." ++ d, b!"1") : KV).1) = some (n : Int) := hp
        rw [seqLoop, if_pos (by rfl), hp']
        rfl
      unfold unflattenSeq
      rw [show dropUntil b!"Xs" [(b!"Xs." ++ d, b!"1"), (b!"_schema:S", [])] = [(b!"Xs." ++ d, b!"1"), (b!"_schema:S", [])] from rfl]
      dsimp only
      rw [h1]
      have h2 : (maxIndex [((n : Int), b!"1")]).toNat = n := by simp [maxIndex]
      simp only [Bool.false_eq_true, if_false, if_true, h2]
      have h3 : parseScalar (.int 64) b!"1" = some (.int 1) := by decide
      rw [storeElems, h3]
      dsimp only
      rw [if_pos (by simp), storeElems]
      rfl
    have hf : unflattenFields [] (sortKV (fieldFns [b!"Xs"] [.slice (.int 64)] 0)) [.seq []]
        [(b!"Xs." ++ d, b!"1"), (b!"_schema:S", [])] =
        some ([.seq ((List.replicate (n + 1) (.int 0)).set n (.int 1))], [(b!"_schema:S", [])], false) := by
      rw [show sortKV (fieldFns [b!"Xs"] [.slice (.int 64)] 0) = [(b!"Xs", 0, unflattenSeq true (.int 64))] from by
        simp only [fieldFns, sortKV, insertKV, unflatten]]
      rw [unflattenFields]
      simp only [List.getElem?_cons_zero, nest, if_true]
      rw [hu]
      rfl
    rw [if_neg (by decide)]
    have ht : unflatten numbersEvent.type [] numbersEvent.type.zero [(b!"Xs." ++ d, b!"1"), (b!"_schema:S", [])] =
        some (.struct [.seq ((List.replicate (n + 1) (.int 0)).set n (.int 1))], [(b!"_schema:S", [])], false) := by
      rw [show numbersEvent.type = .struct [b!"Xs"] [.slice (.int 64)] from rfl, unflatten]
      dsimp only
      rw [show dropUntil [] [(b!"Xs." ++ d, b!"1"), (b!"_schema:S", [])] = [(b!"Xs." ++ d, b!"1"), (b!"_schema:S", [])] from rfl]
      dsimp only
      rw [show (GType.struct [b!"Xs"] [.slice (.int 64)]).zero.fields = [.seq []] from by simp [GType.zero, zeros, GVal.fields], hf]
    rw [show numbersEvent.unmarshaler = none from rfl]
    dsimp only
    rw [ht]
  · have : ∀ xs : List Scalar, xs.length ≤ (xs.map fun x => 1 + scalarSize x).sum := by
      intro xs
      induction xs with
      | nil => simp
      | cons x xs ih => simp only [List.length_cons, List.map_cons, List.sum_cons]; omega
    have h := this ((List.replicate (n + 1) (.int 0)).set n (.int 1))
    simp only [List.length_set, List.length_replicate] at h
    simp only [valueSize, valuesSize]
    omega

/-- A span with one event of each of two types: its schemas are different. -/
example : ((([⟨b!"Name", some b!"x"⟩, ⟨b!"_schema:name", none⟩, ⟨b!"Msg", some b!"hello"⟩, ⟨b!"_schema:msg", none⟩] : List Annotation).map
    Annotation.key).filter fun k => b!"_schema:".isPrefixOf k).Nodup := by decide

/-- Its annotations and events take this much. -/
example : (registerAll libraryEvents []).map (fun reg => (unmarshalEvents reg
    [⟨b!"Name", some b!"x"⟩, ⟨b!"_schema:name", none⟩, ⟨b!"Msg", some b!"hello"⟩, ⟨b!"_schema:msg", none⟩]).map fun r => eventsSize r.1) =
    some (some 8) := rfl

/-- The server's event has the most fields. -/
example : fieldCount serverEvent.type = 14 ∧ sliceFree serverEvent.type = true := ⟨rfl, rfl⟩

end Appdash
