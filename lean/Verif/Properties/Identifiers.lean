import Verif.Proofs.Span

/-!
# Properties C01-C05: identifiers as text and JSON
-/

namespace Appdash

open Spec

/-- **C01** (round trip and shape).  Every ID prints as exactly 16 lowercase hexadecimal digits denoting it, and
parsing that text gives the ID back. -/
theorem id_text_roundtrip (id : ID) :
    parseID id.toText = .ok id ∧ id.toText.length = 16 ∧ (∀ c ∈ id.toText, IsLowerHex c) ∧
      hexValue id.toText = some id.toNat :=
  ⟨parseID_toText id, toText_length id, toText_lower id, toText_value id⟩

/-- **C01** (injectivity).  Different IDs have different texts. -/
theorem id_text_injective (a b : ID) (h : a ≠ b) : a.toText ≠ b.toText :=
  fun e => h (toText_injective e)

example : ID.toText 0xabc0123 = b!"000000000abc0123" := by decide
example : ID.toText 0xffffffffffffffff = b!"ffffffffffffffff" := by decide

/-- **C02**.  `ParseID` accepts exactly the non-empty strings of hexadecimal digits whose value is below 2^64, and
returns that value. -/
theorem parse_id_exact (s : Bytes) (v : ID) : parseID s = .ok v ↔ IDNumeral s v.toNat :=
  parseID_ok s v

/-- **C02** (rejection).  Everything else is rejected with an error. -/
theorem parse_id_rejects (s : Bytes) (h : ¬ ∃ v, IDNumeral s v) : ∃ e, parseID s = .error e := by
  cases hp : parseID s with
  | error e => exact ⟨e, rfl⟩
  | ok v => exact absurd ⟨_, (parseID_ok s v).1 hp⟩ h

example : parseID b!"00000000000000000000000000FfFfFfFfFfFfFfFf" = .ok 0xffffffffffffffff := by decide
example : parseID b!"10000000000000000" = .error .rangeErr := by decide
example : parseID b!"0x1" = .error .syntaxErr := by decide
example : parseID b!"+1" = .error .syntaxErr := by decide
example : parseID b!"" = .error .syntaxErr := by decide
example : IDNumeral b!"00aB" 0xab := by refine ⟨by decide, by decide, by decide⟩

/-- **C03** (round trip).  Every span ID is recovered from its text. -/
theorem span_id_text_roundtrip (id : SpanID) : parseSpanID id.toText = .ok id :=
  parseSpanID_toText id

/-- **C03** (shape).  The text of a root span is `trace/span`, the text of any other span is `trace/span/parent`. -/
theorem span_id_text_shape (id : SpanID) :
    (id.isRoot = true → id.toText = id.trace.toText ++ b!"/" ++ id.span.toText) ∧
    (id.isRoot = false → id.toText = id.trace.toText ++ b!"/" ++ id.span.toText ++ b!"/" ++ id.parent.toText) := by
  unfold SpanID.toText SpanID.isRoot
  constructor
  · intro h
    have : id.parent = 0 := by simpa using h
    simp [this, spanIDDelimiter]
  · intro h
    have : ¬ id.parent = 0 := by simpa using h
    simp [this, spanIDDelimiter]

/-- **C03** (injectivity). -/
theorem span_id_text_injective (a b : SpanID) (h : a ≠ b) : a.toText ≠ b.toText := by
  intro e
  have ha := parseSpanID_toText a
  rw [e, parseSpanID_toText b] at ha
  exact h (by simpa using ha.symm)

example : SpanID.toText ⟨1, 0x1f, 0⟩ = b!"0000000000000001/000000000000001f" := by decide
example : SpanID.toText ⟨1, 2, 3⟩ = b!"0000000000000001/0000000000000002/0000000000000003" := by decide

/-- **C04**.  `ParseSpanID` accepts exactly two or three ID numerals joined by `/`, in the order trace, span, parent;
a missing parent is 0. -/
theorem parse_span_id_exact (s : Bytes) (id : SpanID) :
    parseSpanID s = .ok id ↔
      (∃ t p, s = t ++ b!"/" ++ p ∧ IDNumeral t id.trace.toNat ∧ IDNumeral p id.span.toNat ∧ id.parent = 0) ∨
      (∃ t p q, s = t ++ b!"/" ++ p ++ b!"/" ++ q ∧ IDNumeral t id.trace.toNat ∧ IDNumeral p id.span.toNat ∧
        IDNumeral q id.parent.toNat) := by
  rw [parseSpanID_ok]
  simp [spanIDDelimiter]

/-- **C04** (rejection).  Every other string gives `ErrBadSpanID`. -/
theorem parse_span_id_rejects (s : Bytes) (h : ∀ id, parseSpanID s ≠ .ok id) :
    parseSpanID s = .error .badSpanID := by
  cases hp : parseSpanID s with
  | error e => cases e; rfl
  | ok v => exact absurd hp (h v)

example : parseSpanID b!"1/A/b" = .ok ⟨1, 10, 11⟩ := by decide
example : parseSpanID b!"1/A" = .ok ⟨1, 10, 0⟩ := by decide
example : parseSpanID b!"1/A/b/" = .error .badSpanID := by decide
example : parseSpanID b!"1" = .error .badSpanID := by decide
example : parseSpanID b!"1//2" = .error .badSpanID := by decide

/-- **C05** (round trip).  Decoding the JSON form of an ID gives the ID; the JSON form is a string of its text. -/
theorem id_json_roundtrip (id : ID) :
    unmarshalJSONID id.marshalJSON = some id ∧ id.marshalJSON = .str id.toText := by
  refine ⟨?_, rfl⟩
  simp [unmarshalJSONID, ID.marshalJSON, parseJSONString, parseID_toText, Except.toOption]

/-- **C05** (strings are hexadecimal).  A JSON string decodes to an ID exactly if it is an ID numeral, and to that
numeral's value; in particular digits in a string are never read as decimal. -/
theorem id_json_string (s : Bytes) (v : ID) :
    unmarshalJSONID (.str s) = some v ↔ IDNumeral s v.toNat := by
  rw [← parseID_ok]
  simp only [unmarshalJSONID, parseJSONString, parseJSONInt]
  cases parseID s <;> simp [Except.toOption]

/-- **C05** (integers are decimal values).  A JSON integer decodes to an ID exactly if it is in `[0, 2^64)`, and to
that number. -/
theorem id_json_int (i : Int) (v : ID) :
    unmarshalJSONID (.int i) = some v ↔ 0 ≤ i ∧ i < 2 ^ 64 ∧ (v.toNat : Int) = i := by
  simp only [unmarshalJSONID, parseJSONString, parseJSONInt]
  constructor
  · intro h
    split at h
    · rename_i hr
      simp only [Option.some.injEq] at h
      subst h
      refine ⟨hr.1, hr.2, ?_⟩
      rw [UInt64.toNat_ofNat', Nat.mod_eq_of_lt (by omega)]
      omega
    · simp at h
  · rintro ⟨h0, h1, h2⟩
    rw [if_pos ⟨h0, h1⟩, ← h2]
    simp

/-- **C05** (nothing else).  JSON values that are neither string, integer nor null are rejected; `null` decodes
to 0 (a consequence of how Go decodes null into an integer). -/
theorem id_json_other : unmarshalJSONID .other = none ∧ unmarshalJSONID .null = some 0 := by
  decide

example : unmarshalJSONID (.str b!"10") = some 16 ∧ unmarshalJSONID (.int 10) = some 10 := by decide
example : unmarshalJSONID (.int 18446744073709551615) = some 0xffffffffffffffff := by decide
example : unmarshalJSONID (.int 18446744073709551616) = none := by decide
example : unmarshalJSONID (.int (-1)) = none := by decide

end Appdash
