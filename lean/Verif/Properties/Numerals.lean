import Verif.Proofs.EventTexts
import Verif.Properties.Rfc3339

/-!
# Property C138: the values of an event's fields are what its annotations say
-/

namespace Appdash

open Spec

/-- The width of integers is one of Go's. -/
def ScalarTy.goWidth : ScalarTy → Prop
  | .int b => b ∈ [8, 16, 32, 64]
  | .uint b => b ∈ [8, 16, 32, 64]
  | .float b => b ∈ [32, 64]
  | _ => True

/-- **C138**, as a user would expect it.  If an event, whose fields are all scalars, is read without error from annotations that have all its
fields, then the value of every field is what the last annotation with its name says. -/
def ReadAsWritten : Prop :=
  ∀ (E : EventType) (ns : List Bytes) (ss : List ScalarTy), E.reflective → E.type = .struct ns (ss.map (GType.scalar false)) →
    ns.Nodup → ns.length = ss.length → ns ≠ [] → (∀ s ∈ ss, s.goWidth) → ∀ (as : List Annotation),
    (∃ a ∈ as, a.key = b!"_schema:" ++ E.schema) → ∀ (ys : List Bytes), List.Forall₂ (LastValue as) ns ys →
    ∀ (vs ws : List GVal), vs.length = ns.length → unmarshalEvent E as (.struct vs) = some (.struct ws, none) →
      ∀ (i : Nat) (s : ScalarTy) (y : Bytes), ss[i]? = some s → ys[i]? = some y → ∃ x, Denotes s y x ∧ ws[i]? = some (.scalar x)

/-- **C138** (a text is read in one way). -/
theorem readsAs_unique {s : ScalarTy} (hw : s.goWidth) {y : Bytes} {x x' : Scalar} (h : ReadsAs s y x) (h' : ReadsAs s y x') : x = x' := by
  have hb : ∀ b, s = .int b → 0 < b := by
    rintro b rfl
    simp only [ScalarTy.goWidth, List.mem_cons, List.not_mem_nil, or_false] at hw
    omega
  have := ((parseScalar_iff hb).2 h).symm.trans ((parseScalar_iff hb).2 h')
  injection this

/-- **C138** (what is read).  The fields are read in the order of their names, up to the first one whose text cannot be read: that one and
the later ones keep their values, and no error is returned.  `ReadsAs` says which texts can be read and as what: integers are cut to the
width of the field and all floating-point numbers are rounded to `float32`. -/
theorem annotated_fields_read_partial (E : EventType) (ns : List Bytes) (ss : List ScalarTy) (hr : E.reflective)
    (ht : E.type = .struct ns (ss.map (GType.scalar false))) (hn : ns.Nodup) (hlen : ns.length = ss.length) (hne : ns ≠ [])
    (hw : ∀ s ∈ ss, s.goWidth) (as : List Annotation) (hs : ∃ a ∈ as, a.key = b!"_schema:" ++ E.schema) (ys : List Bytes)
    (hy : List.Forall₂ (LastValue as) ns ys) (vs : List GVal) (hv : vs.length = ns.length) :
    ∃ ws, unmarshalEvent E as (.struct vs) = some (.struct ws, none) ∧ ws.length = vs.length ∧
      ∀ (i : Nat) (n : Bytes) (s : ScalarTy) (y : Bytes), ns[i]? = some n → ss[i]? = some s → ys[i]? = some y →
        ((∀ (j : Nat) (m : Bytes) (t : ScalarTy) (z : Bytes), ns[j]? = some m → ss[j]? = some t → ys[j]? = some z → m < n ∨ m = n →
            ∃ x, ReadsAs t z x) → ∃ x, ReadsAs s y x ∧ ws[i]? = some (.scalar x)) ∧
        (∀ (j : Nat) (m : Bytes) (t : ScalarTy) (z : Bytes), ns[j]? = some m → ss[j]? = some t → ys[j]? = some z → m < n ∨ m = n →
            (¬ ∃ x, ReadsAs t z x) → ws[i]? = vs[i]?) := by
  have hb : ∀ s ∈ ss, ∀ b, s = .int b → 0 < b := by
    rintro s hs b rfl
    have := hw _ hs
    simp only [ScalarTy.goWidth, List.mem_cons, List.not_mem_nil, or_false] at this
    omega
  obtain ⟨ws, h1, h2, h3⟩ := flat_event_texts E hr ns ss ht hn hlen hne as hs ys hy vs hv
  refine ⟨ws, h1, h2, ?_⟩
  intro i n s y e1 e2 e3
  obtain ⟨a1, a2⟩ := h3 i n s y e1 e2 e3
  have hbs := hb s (List.mem_of_getElem? e2)
  constructor
  · intro hall
    have hall' : ∀ (j : Nat) (m : Bytes) (t : ScalarTy) (z : Bytes), ns[j]? = some m → ss[j]? = some t → ys[j]? = some z → m < n ∨ m = n →
        parseScalar t z ≠ none := by
      intro j m t z q1 q2 q3 q4 hc
      obtain ⟨x, hx⟩ := hall j m t z q1 q2 q3 q4
      rw [(parseScalar_iff (hb t (List.mem_of_getElem? q2))).2 hx] at hc
      cases hc
    have := a1 hall'
    obtain ⟨x, hx⟩ := hall i n s y e1 e2 e3 (Or.inr rfl)
    rw [(parseScalar_iff hbs).2 hx] at this
    exact ⟨x, hx, this⟩
  · intro j m t z q1 q2 q3 q4 hc
    refine a2 j m t z q1 q2 q3 q4 ?_
    cases hp : parseScalar t z with
    | none => rfl
    | some x => exact absurd ⟨x, (parseScalar_iff (hb t (List.mem_of_getElem? q2))).1 hp⟩ hc

/-- What a text denotes is what is read, except in fields of the types `float64` and `time.Duration`. -/
theorem denotes_readsAs {s : ScalarTy} (hw : s.goWidth) (h64 : s ≠ .float 64) (hd : s ≠ .duration) {y : Bytes} {x : Scalar}
    (h : Denotes s y x) : ReadsAs s y x := by
  cases s with
  | bool => cases x <;> exact h
  | int b =>
    cases x <;> try exact h.elim
    obtain ⟨h1, h2, h3⟩ := h
    have hb : (2 : Int) ^ (b - 1) ≤ 2 ^ 63 := by
      simp only [ScalarTy.goWidth, List.mem_cons, List.not_mem_nil, or_false] at hw
      rcases hw with rfl | rfl | rfl | rfl <;> decide
    exact ⟨_, h1, by omega, by omega, by simp, h2, h3⟩
  | uint b =>
    cases x <;> try exact h.elim
    obtain ⟨k, hk, h1, h2⟩ := h
    have hb : 2 ^ b ≤ 2 ^ 64 := by
      simp only [ScalarTy.goWidth, List.mem_cons, List.not_mem_nil, or_false] at hw
      rcases hw with rfl | rfl | rfl | rfl <;> decide
    exact ⟨k, _, hk, h1, by omega, by simp, h2⟩
  | string => cases x <;> exact h
  | time =>
    cases x <;> try exact h.elim
    exact Or.inl (timeText_weaken (by decide) (by decide) h)
  | float b =>
    cases x <;> try exact h.elim
    have hb : b = 32 := by
      simp only [ScalarTy.goWidth, List.mem_cons, List.not_mem_nil, or_false] at hw
      rcases hw with h | h
      · exact h
      · subst h; exact absurd rfl h64
    subst hb
    exact h
  | duration => exact absurd rfl hd

/-- **C138** for texts that denote values of the fields, where no field is a `float64` or a duration: exactly these values are read. -/
theorem denoted_values_read_partial (E : EventType) (ns : List Bytes) (ss : List ScalarTy) (hr : E.reflective)
    (ht : E.type = .struct ns (ss.map (GType.scalar false))) (hn : ns.Nodup) (hlen : ns.length = ss.length) (hne : ns ≠ [])
    (hw : ∀ s ∈ ss, s.goWidth ∧ s ≠ .float 64 ∧ s ≠ .duration) (as : List Annotation)
    (hs : ∃ a ∈ as, a.key = b!"_schema:" ++ E.schema) (ys : List Bytes) (hy : List.Forall₂ (LastValue as) ns ys) (xs : List Scalar)
    (hx : ∀ (i : Nat) (s : ScalarTy) (y : Bytes), ss[i]? = some s → ys[i]? = some y → ∃ x, xs[i]? = some x ∧ Denotes s y x)
    (hl : xs.length = ns.length) (vs : List GVal) (hv : vs.length = ns.length) :
    unmarshalEvent E as (.struct vs) = some (.struct (xs.map GVal.scalar), none) := by
  obtain ⟨ws, h1, h2, h3⟩ := annotated_fields_read_partial E ns ss hr ht hn hlen hne (fun s h => (hw s h).1) as hs ys hy vs hv
  rw [h1]
  have hly : ns.length = ys.length := hy.length_eq
  have : ws = xs.map GVal.scalar := by
    apply List.ext_getElem?
    intro i
    by_cases hi : i < ns.length
    · have e1 := List.getElem?_eq_getElem hi
      have e2 := List.getElem?_eq_getElem (l := ss) (by omega : i < ss.length)
      have e3 := List.getElem?_eq_getElem (l := ys) (by omega : i < ys.length)
      have reads : ∀ (j : Nat) (t : ScalarTy) (z : Bytes), ss[j]? = some t → ys[j]? = some z → ∃ x, xs[j]? = some x ∧ ReadsAs t z x := by
        intro j t z q1 q2
        obtain ⟨x, q3, q4⟩ := hx j t z q1 q2
        obtain ⟨w1, w2, w3⟩ := hw t (List.mem_of_getElem? q1)
        exact ⟨x, q3, denotes_readsAs w1 w2 w3 q4⟩
      obtain ⟨x, q1, q2⟩ := (h3 i _ _ _ e1 e2 e3).1 (fun j m t z _ b c _ => by
        obtain ⟨x, -, h⟩ := reads j t z b c
        exact ⟨x, h⟩)
      obtain ⟨x', q3, q4⟩ := reads i _ _ e2 e3
      rw [q2, List.getElem?_map, q3, readsAs_unique (hw _ (List.mem_of_getElem? e2)).1 q1 q4]
      rfl
    · rw [List.getElem?_eq_none (by omega), List.getElem?_eq_none (by simp; omega)]
  rw [this]

/-- A user's event: `type Job struct { Retries int8; Ratio float32; Name string }`. -/
def jobEvent : EventType where
  schema := b!"Job"
  type := .struct [b!"Retries", b!"Ratio", b!"Name"] [.scalar false (.int 8), .scalar false (.float 32), .scalar false .string]

/-- Its annotations with the given texts. -/
def jobAnnotations (retries ratio name : Bytes) : List Annotation :=
  [⟨b!"Name", some name⟩, ⟨b!"_schema:Job", none⟩, ⟨b!"Ratio", some ratio⟩, ⟨b!"Retries", some retries⟩]

theorem job_last (retries ratio name : Bytes) :
    List.Forall₂ (LastValue (jobAnnotations retries ratio name)) [b!"Retries", b!"Ratio", b!"Name"] [retries, ratio, name] := by
  refine .cons ⟨[⟨b!"Name", some name⟩, ⟨b!"_schema:Job", none⟩, ⟨b!"Ratio", some ratio⟩], ⟨b!"Retries", some retries⟩, [], rfl, rfl, rfl,
    by simp⟩ (.cons ⟨[⟨b!"Name", some name⟩, ⟨b!"_schema:Job", none⟩], ⟨b!"Ratio", some ratio⟩, [⟨b!"Retries", some retries⟩], rfl, rfl, rfl,
    by simp⟩ (.cons ⟨[], ⟨b!"Name", some name⟩, _, rfl, rfl, rfl, by simp⟩ .nil))

/-- What is read of it, if all texts can be read. -/
theorem job_reads {retries ratio name : Bytes} {a b : Scalar} (h1 : parseScalar (.int 8) retries = some a)
    (h2 : parseScalar (.float 32) ratio = some b) : unmarshalEvent jobEvent (jobAnnotations retries ratio name) jobEvent.type.zero =
      some (.struct [.scalar a, .scalar b, .scalar (.string name)], none) := by
  obtain ⟨ws, e1, e2, e3⟩ := flat_event_texts jobEvent ⟨rfl, rfl⟩ [b!"Retries", b!"Ratio", b!"Name"] [.int 8, .float 32, .string] rfl (by decide)
    rfl (by decide) (jobAnnotations retries ratio name) ⟨⟨b!"_schema:Job", none⟩, by simp [jobAnnotations], rfl⟩ _ (job_last retries ratio name)
    [.scalar (.int 0), .scalar (.float (.fin false 0)), .scalar (.string [])] rfl
  have all : ∀ (j : Nat) (m : Bytes) (t : ScalarTy) (z : Bytes), [b!"Retries", b!"Ratio", b!"Name"][j]? = some m →
      [ScalarTy.int 8, .float 32, .string][j]? = some t → [retries, ratio, name][j]? = some z → parseScalar t z ≠ none := by
    intro j m t z q1 q2 q3
    match j with
    | 0 => cases q2; cases q3; simp [h1]
    | 1 => cases q2; cases q3; simp [h2]
    | 2 => cases q2; cases q3; simp [parseScalar]
  have w0 := (e3 0 _ _ _ rfl rfl rfl).1 fun j m t z q1 q2 q3 _ => all j m t z q1 q2 q3
  have w1 := (e3 1 _ _ _ rfl rfl rfl).1 fun j m t z q1 q2 q3 _ => all j m t z q1 q2 q3
  have w2 := (e3 2 _ _ _ rfl rfl rfl).1 fun j m t z q1 q2 q3 _ => all j m t z q1 q2 q3
  rw [h1] at w0
  rw [h2] at w1
  match ws, e2 with
  | [x, y, z], _ =>
    simp only [List.getElem?_cons_zero, List.getElem?_cons_succ, Option.map_some, Option.some.injEq, parseScalar] at w0 w1 w2
    subst w0 w1 w2
    exact e1

set_option exponentiation.threshold 2100 in
/-- A quarter, written with an exponent. -/
example : unmarshalEvent jobEvent (jobAnnotations b!"+7" b!"25e-2" b!"mail") jobEvent.type.zero =
    some (.struct [.scalar (.int 7), .scalar (.float (.fin false (2 ^ 1072))), .scalar (.string b!"mail")], none) :=
  job_reads (by decide +kernel) (by decide +kernel)

set_option exponentiation.threshold 2100 in
/-- **C138** (refutation).  300 retries are read as 44; without error.  And if the text of a field cannot be read, it and the fields with
later names keep the values that they had, without error. -/
theorem not_read_as_written : ¬ ReadAsWritten ∧
    unmarshalEvent jobEvent (jobAnnotations b!"300" b!"25e-2" b!"mail") jobEvent.type.zero =
      some (.struct [.scalar (.int 44), .scalar (.float (.fin false (2 ^ 1072))), .scalar (.string b!"mail")], none) ∧
    unmarshalEvent jobEvent (jobAnnotations b!"3" b!"many" b!"mail") jobEvent.type.zero =
      some (.struct [.scalar (.int 0), .scalar (.float (.fin false 0)), .scalar (.string b!"mail")], none) := by
  have h1 : unmarshalEvent jobEvent (jobAnnotations b!"300" b!"25e-2" b!"mail") jobEvent.type.zero =
      some (.struct [.scalar (.int 44), .scalar (.float (.fin false (2 ^ 1072))), .scalar (.string b!"mail")], none) :=
    job_reads (by decide +kernel) (by decide +kernel)
  refine ⟨?_, h1, rfl⟩
  intro H
  obtain ⟨x, hx, hw⟩ := H jobEvent [b!"Retries", b!"Ratio", b!"Name"] [.int 8, .float 32, .string] ⟨rfl, rfl⟩ rfl (by decide) rfl (by decide)
    (by intro s hs; simp only [List.mem_cons, List.not_mem_nil, or_false] at hs; rcases hs with rfl | rfl | rfl <;> simp [ScalarTy.goWidth])
    _ ⟨⟨b!"_schema:Job", none⟩, by decide, rfl⟩ _ (job_last b!"300" b!"25e-2" b!"mail") _ _ rfl h1 0 (.int 8) b!"300" rfl rfl
  simp only [List.getElem?_cons_zero, Option.some.injEq, GVal.scalar.injEq] at hw
  subst hw
  have h3 : Integer b!"300" 44 := hx.1
  have := (parseIntDec_iff (s := b!"300") (i := 44)).2 ⟨h3, by decide, by decide⟩
  revert this
  decide

/-- **C138** (what is written).  The text that is written for a finite `float64` or `float32` denotes it. -/
theorem written_float_denotes (neg : Bool) (k : Nat) :
    (Binary 53 0 k → k < 2 ^ (1024 + 1074) → Denotes (.float 64) (formatFloat (.fin neg k)) (.float (.fin neg k))) ∧
    (Binary 24 925 k → k < 2 ^ (128 + 1074) → Denotes (.float 32) (formatFloat (.fin neg k)) (.float (.fin neg k))) := by
  constructor
  · intro h1 h2
    exact (parseFloat_text64 _ _).1 (parseFloat_formatFloat (x := .fin neg k) ⟨binary_iff.1 h1, h2⟩)
  · intro h1 h2
    exact (parseFloat_text32 _ _).1 (parseFloat_formatFloat_narrow (x := .fin neg k) ⟨binary_iff.1 h1, h2⟩)

/-- The largest `float64`. -/
example : Denotes (.float 64) (formatFloat (.fin true ((2 ^ 53 - 1) * 2 ^ 2045))) (.float (.fin true ((2 ^ 53 - 1) * 2 ^ 2045))) :=
  (written_float_denotes true _).1 ⟨2 ^ 53 - 1, 2045, by decide, by decide, rfl⟩ (by decide +kernel)

set_option exponentiation.threshold 2100 in
/-- The hypotheses of `denoted_values_read_partial` are met. -/
example : unmarshalEvent jobEvent (jobAnnotations b!"-128" b!".5E+1" b!"mail") (.struct [.scalar (.int 1), .map [], .seq []]) =
    some (.struct [.scalar (.int (-128)), .scalar (.float (.fin false (5 * 2 ^ 1074))), .scalar (.string b!"mail")], none) :=
  denoted_values_read_partial jobEvent [b!"Retries", b!"Ratio", b!"Name"] [.int 8, .float 32, .string] ⟨rfl, rfl⟩ rfl (by decide) rfl (by decide)
    (by intro s hs; simp only [List.mem_cons, List.not_mem_nil, or_false] at hs; rcases hs with rfl | rfl | rfl <;> simp [ScalarTy.goWidth])
    _ ⟨⟨b!"_schema:Job", none⟩, by decide, rfl⟩ _ (job_last b!"-128" b!".5E+1" b!"mail")
    [.int (-128), .float (.fin false (5 * 2 ^ 1074)), .string b!"mail"] (by
      intro i s y h1 h2
      match i with
      | 0 => cases h1; cases h2; exact ⟨_, rfl, ((parseIntDec_iff (s := b!"-128")).1 (by decide)).1, by decide, by decide⟩
      | 1 => cases h1; cases h2; exact ⟨_, rfl, (parseFloat_text32 _ _).1 (by decide +kernel)⟩
      | 2 => cases h1; cases h2; exact ⟨_, rfl, rfl⟩) rfl _ rfl

end Appdash
