import Verif.Proofs.EventNumbers
import Verif.Properties.EventFlat

/-!
# C100, C101: durations and floating-point numbers in events
-/

namespace Appdash

/-! ## Both kinds at once -/

/-- **C100, C101**, what is left of them.  An event of scalar fields is read back with every duration off by at most one nanosecond and
every floating-point number off by at most one part in 2^23, and everything else exact, whatever the span's other annotations are
(as long as later ones do not have the keys of its fields) and whatever it is read into. -/
theorem event_numbers_close_partial (E : EventType) (hr : E.reflective) (ns : List Bytes) (ss : List ScalarTy)
    (ht : E.type = .struct ns (ss.map (GType.scalar false))) (hrec : E.type.isRecord = true) (hn : ns.Nodup)
    (hlen : ns.length = ss.length) (hne : ns ≠ []) (xs : List Scalar)
    (hh : List.Forall₂ Approximable ss xs) (own : List Annotation)
    (hm : Marshals E (.struct (xs.map GVal.scalar)) (.ok own)) (before after : List Annotation)
    (hafter : ∀ a ∈ after, a.key ∉ ns) (vs : List GVal) (hv : vs.length = xs.length) :
    ∃ zs : List Scalar, unmarshalEvent E (before ++ own ++ after) (.struct vs) = some (.struct (zs.map GVal.scalar), none) ∧
      List.Forall₂ CloseTo xs zs := by
  have hz : ∃ zs : List Scalar, List.Forall₂ CloseTo xs zs ∧ ss.length = zs.length ∧
      ∀ (i : Nat) (s : ScalarTy) (x z : Scalar), ss[i]? = some s → xs[i]? = some x → zs[i]? = some z → parseScalar s x.text = some z := by
    clear hn hlen hne hv ht hm hafter
    induction hh with
    | nil => exact ⟨[], .nil, rfl, by simp⟩
    | cons h _ ih =>
      obtain ⟨z, h1, h2⟩ := parseScalar_close h
      obtain ⟨zs, q1, q2, q3⟩ := ih
      refine ⟨z :: zs, .cons h2 q1, by simp [q2], ?_⟩
      intro i s x z' a b c
      cases i with
      | zero => cases a; cases b; cases c; exact h1
      | succ i => exact q3 i s x z' (by simpa using a) (by simpa using b) (by simpa using c)
  obtain ⟨zs, h1, h2, h3⟩ := hz
  have hl : ss.length = xs.length := hh.length_eq
  exact ⟨zs, flat_event_reads E hr ns ss ht hrec hn hlen hne xs hl own hm before after hafter zs h2 h3 vs (by omega), h1⟩

/-- An event with a duration of 249 nanoseconds, after other annotations. -/
example (own : List Annotation) (hm : Marshals stepEvent (.struct [.scalar (.duration 249)]) (.ok own)) :
    ∃ zs : List Scalar, unmarshalEvent stepEvent ([⟨b!"Tookx", none⟩] ++ own ++ []) stepEvent.type.zero =
      some (.struct (zs.map GVal.scalar), none) ∧ List.Forall₂ CloseTo [.duration 249] zs :=
  event_numbers_close_partial stepEvent ⟨rfl, rfl⟩ [b!"Took"] [.duration] rfl (by decide) (by decide) rfl (by decide) [.duration 249]
    (.cons (.inl (by decide)) .nil) own hm _ [] (by simp) _ rfl

/-! ## Durations -/

/-- The full statement of **C100**: an event's duration is read back. -/
def DurationsSurvive : Prop :=
  ∀ (E : EventType) (n : Bytes), E.reflective → E.type = .struct [n] [.scalar false .duration] → E.type.isRecord = true →
    ∀ (d : Int), -2 ^ 63 ≤ d → d < 2 ^ 63 → ∀ own, Marshals E (.struct [.scalar (.duration d)]) (.ok own) →
      unmarshalEvent E own E.type.zero = some (.struct [.scalar (.duration d)], none)

/-- **C100 is false**: a duration of 249 ns is read back as 248 ns. -/
theorem durations_do_not_survive : ¬ DurationsSurvive := by
  intro h
  have hm : Marshals stepEvent (.struct [.scalar (.duration 249)])
      (.ok ([annotationOf (b!"Took", formatDuration 249)] ++ [schemaMarker b!"Step"])) :=
    ⟨[(b!"Took", formatDuration 249)], List.Perm.refl _, rfl⟩
  have h1 := h stepEvent b!"Took" ⟨rfl, rfl⟩ rfl (by decide) 249 (by decide) (by decide) _ hm
  rw [step_reads 249 248 (by decide +kernel) _ hm] at h1
  simp at h1

/-- The longest duration, 292 years, is read back as a negative one of the same length (on amd64). -/
theorem longest_duration_turns_negative (own : List Annotation)
    (hm : Marshals stepEvent (.struct [.scalar (.duration (2 ^ 63 - 1))]) (.ok own)) :
    unmarshalEvent stepEvent own stepEvent.type.zero = some (.struct [.scalar (.duration (-2 ^ 63))], none) :=
  step_reads _ _ (by decide +kernel) own hm

/-- **C100** for durations of whole milliseconds below 2^53 nanoseconds (104 days). -/
theorem whole_millisecond_durations_survive_partial (E : EventType) (n : Bytes) (hr : E.reflective)
    (ht : E.type = .struct [n] [.scalar false .duration]) (hrec : E.type.isRecord = true) (d : Int) (hd : 1000000 ∣ d)
    (hb : d.natAbs < 2 ^ 53) (own : List Annotation) (hm : Marshals E (.struct [.scalar (.duration d)]) (.ok own)) :
    unmarshalEvent E own E.type.zero = some (.struct [.scalar (.duration d)], none) := by
  have := flat_event_survives E hr [n] [.duration] ht hrec (by simp) rfl (by simp) [.duration d]
    (by rw [ht]; simp [GType.holds, holdsAll, ScalarTy.holds, hd]; omega) own hm [] [] (by simp) [.scalar (.duration 0)] rfl
  rw [ht]
  rw [List.append_nil] at this
  exact this

/-- A second and a half. -/
example (own : List Annotation) (hm : Marshals stepEvent (.struct [.scalar (.duration 1500000000)]) (.ok own)) :
    unmarshalEvent stepEvent own stepEvent.type.zero = some (.struct [.scalar (.duration 1500000000)], none) :=
  whole_millisecond_durations_survive_partial stepEvent b!"Took" ⟨rfl, rfl⟩ rfl (by decide) _ (by decide) (by decide) own hm

/-! ## Floating-point numbers -/

/-- The full statement of **C101**: an event's `float64` is read back, and so is the rest of the event. -/
def FloatsSurvive : Prop :=
  ∀ (neg : Bool) (k : Nat), IsFloat64 k → ∀ (unit : Bytes) (own : List Annotation),
    Marshals rateEvent (.struct [.scalar (.float (.fin neg k)), .scalar (.string unit)]) (.ok own) →
      unmarshalEvent rateEvent own rateEvent.type.zero = some (.struct [.scalar (.float (.fin neg k)), .scalar (.string unit)], none)

set_option exponentiation.threshold 2100 in
/-- **C101 is false**: 16777217 is read back as 16777216. -/
theorem floats_do_not_survive : ¬ FloatsSurvive := by
  intro h
  have hm : Marshals rateEvent (.struct [.scalar (.float (.fin false (16777217 * 2 ^ 1074))), .scalar (.string b!"kB/s")])
      (.ok ([annotationOf (b!"Amount", formatFloat (.fin false (16777217 * 2 ^ 1074))), annotationOf (b!"Unit", b!"kB/s")] ++
        [schemaMarker b!"Rate"])) :=
    ⟨[(b!"Amount", formatFloat (.fin false (16777217 * 2 ^ 1074))), (b!"Unit", b!"kB/s")], List.Perm.refl _, rfl⟩
  have h1 := h false (16777217 * 2 ^ 1074) ⟨⟨16777217, 1074, by decide, rfl⟩, by decide +kernel⟩ _ _ hm
  rw [rate_reads _ (.fin false (16777216 * 2 ^ 1074)) _ (by decide +kernel) _ hm] at h1
  simp at h1

/-- A `float64` of 2^128 or more makes reading stop: neither it nor the fields whose names sort after it are read, and no error is
returned. -/
theorem large_float_loses_fields (neg : Bool) (k : Nat) (hk : IsFloat64 k) (hl : 2 ^ (128 + 1074) ≤ k) (unit : Bytes)
    (own : List Annotation)
    (hm : Marshals rateEvent (.struct [.scalar (.float (.fin neg k)), .scalar (.string unit)]) (.ok own)) :
    unmarshalEvent rateEvent own rateEvent.type.zero =
      some (.struct [.scalar (.float (.fin false 0)), .scalar (.string [])], none) := by
  have hp : parseFloat true (formatFloat (.fin neg k)) = none := by
    obtain ⟨m, e, h1, h2⟩ := hk.1
    exact parseFloat_large (hasBits_iff.2 ⟨m, e, h1, Nat.zero_le _, h2⟩) hl
  generalize GoFloat.fin neg k = x at *
  obtain ⟨kvs, hperm, rfl⟩ := marshals_ok (show rateEvent.marshaler = none from rfl) hm
  have hf : flatten rateEvent.type [] (.struct [.scalar (.float x), .scalar (.string unit)]) =
      [(b!"Amount", formatFloat x), (b!"Unit", unit)] := rfl
  rw [hf] at hperm
  have hkv : mapToKVs (stringMap (kvs.map annotationOf ++ [schemaMarker rateEvent.schema])) =
      [(b!"Amount", formatFloat x), (b!"Unit", unit), (b!"_schema:Rate", [])] := by
    generalize formatFloat x = t at *
    rcases perm_two hperm with rfl | rfl <;> rfl
  have hs : (schemas (kvs.map annotationOf ++ [schemaMarker rateEvent.schema])).contains rateEvent.schema = true := by
    rw [List.contains_iff_mem, mem_schemas]
    exact ⟨schemaMarker rateEvent.schema, by simp, rfl⟩
  have hu : unflatten rateEvent.type [] rateEvent.type.zero [(b!"Amount", formatFloat x), (b!"Unit", unit), (b!"_schema:Rate", [])] =
      some (rateEvent.type.zero, [(b!"Amount", formatFloat x), (b!"Unit", unit), (b!"_schema:Rate", [])], true) := by
    generalize formatFloat x = t at *
    have hf : sortKV (fieldFns [b!"Amount", b!"Unit"] [.scalar false (.float 64), .scalar false .string] 0) =
        [(b!"Amount", 0, unflattenScalar false (.float 64)), (b!"Unit", 1, unflattenScalar false .string)] := rfl
    have hd : dropUntil b!"Amount" [(b!"Amount", t), (b!"Unit", unit), (b!"_schema:Rate", [])] =
        [(b!"Amount", t), (b!"Unit", unit), (b!"_schema:Rate", [])] := rfl
    have ha : unflattenScalar false (.float 64) b!"Amount" (.scalar (.float (.fin false 0)))
        [(b!"Amount", t), (b!"Unit", unit), (b!"_schema:Rate", [])] =
          some (.scalar (.float (.fin false 0)), [(b!"Amount", t), (b!"Unit", unit), (b!"_schema:Rate", [])], true) := by
      simp only [unflattenScalar, hd, parseScalar, hp, Option.map_none]
    have hz : rateEvent.type.zero = .struct [.scalar (.float (.fin false 0)), .scalar (.string [])] := rfl
    rw [show rateEvent.type = .struct [b!"Amount", b!"Unit"] [.scalar false (.float 64), .scalar false .string] from rfl] at hz ⊢
    rw [hz]
    simp only [unflatten, dropUntil_nil_pre, GVal.fields, hf, unflattenFields, List.getElem?_cons_zero]
    rw [show nest [] b!"Amount" = b!"Amount" from rfl, ha]
    rfl
  simp only [unmarshalEvent, hs, Bool.true_eq_false, if_false, hkv, hu, show rateEvent.unmarshaler = none from rfl]
  rfl

set_option exponentiation.threshold 2100 in
/-- 2^200, with its unit. -/
example (own : List Annotation)
    (hm : Marshals rateEvent (.struct [.scalar (.float (.fin false (2 ^ (200 + 1074)))), .scalar (.string b!"kB/s")]) (.ok own)) :
    unmarshalEvent rateEvent own rateEvent.type.zero =
      some (.struct [.scalar (.float (.fin false 0)), .scalar (.string [])], none) :=
  large_float_loses_fields false _ ⟨⟨1, 1274, by decide, by decide +kernel⟩, by decide +kernel⟩ (by decide +kernel) _ own hm

/-- **C101** for values of `float32`, as they are read into a `float32` or `float64` field. -/
theorem narrow_floats_survive_partial (E : EventType) (n : Bytes) (bits : Nat) (hbits : bits = 32 ∨ bits = 64) (hr : E.reflective)
    (ht : E.type = .struct [n] [.scalar false (.float bits)]) (hrec : E.type.isRecord = true) (neg : Bool) (m e : Nat)
    (hm24 : m < 2 ^ 24) (he : 925 ≤ e) (hlt : m * 2 ^ e < 2 ^ (128 + 1074)) (own : List Annotation)
    (hm : Marshals E (.struct [.scalar (.float (.fin neg (m * 2 ^ e)))]) (.ok own)) :
    unmarshalEvent E own E.type.zero = some (.struct [.scalar (.float (.fin neg (m * 2 ^ e)))], none) := by
  have hk := (fits32_iff (m * 2 ^ e)).2 ⟨⟨m, e, hm24, he, rfl⟩, hlt⟩
  have := flat_event_survives E hr [n] [.float bits] ht hrec (by simp) rfl (by simp) [.float (.fin neg (m * 2 ^ e))]
    (by rw [ht]; simp [GType.holds, holdsAll, ScalarTy.holds, GoFloat.fits32, hk, hbits]) own hm [] [] (by simp)
    [.scalar (.float (.fin false 0))] rfl
  rw [ht]
  rw [List.append_nil] at this
  exact this

set_option exponentiation.threshold 2100 in
/-- -1.5 in a `float64` field. -/
example (E : EventType) (hr : E.reflective) (ht : E.type = .struct [b!"Ratio"] [.scalar false (.float 64)]) (own : List Annotation)
    (hm : Marshals E (.struct [.scalar (.float (.fin true (3 * 2 ^ 1073)))]) (.ok own)) :
    unmarshalEvent E own E.type.zero = some (.struct [.scalar (.float (.fin true (3 * 2 ^ 1073)))], none) :=
  narrow_floats_survive_partial E b!"Ratio" 64 (.inr rfl) hr ht (by rw [ht]; decide) true 3 1073 (by decide) (by decide)
    (by decide +kernel) own hm

end Appdash
