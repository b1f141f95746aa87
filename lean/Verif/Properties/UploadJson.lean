import Verif.Proofs.JsonSound
import Verif.Proofs.UploadJson
import Verif.Properties.JsonText

/-!
# C130: which request bodies the upload page takes, and as what
-/

namespace Appdash

open Spec

/-- **C130** (the language).  A text is read as a value exactly if the grammar of JSON gives it that value; nothing else is taken. -/
theorem json_read_iff (text : Bytes) (v : JVal) : parseJSON text = some v ↔ IsJSON text v := ⟨isJSON_of_parse, parse_isJSON⟩

/-- **C130** (one meaning).  No text has two values, and no value stands for two lists of traces. -/
theorem json_unambiguous {text : Bytes} {v v' : JVal} (h : IsJSON text v) (h' : IsJSON text v') : v = v' := by
  have := (parse_isJSON h).symm.trans (parse_isJSON h')
  exact Option.some.inj this

/-- **C130** (one meaning, continued). -/
theorem traces_unambiguous {v : JVal} {ps ps' : List PTree} (h : ReadsTraces v ps) (h' : ReadsTraces v ps') : ps = ps' := by
  rw [← readsTraces_iff] at h h'
  exact Option.some.inj (h.symm.trans h')

/-- **C130** (uploads).  A body is taken exactly if it is the JSON of a list of traces; then these traces are stored.  Any other body
is refused and nothing is stored. -/
theorem upload_language (ms : MemStore) (body : Bytes) :
    (∀ v ps, IsJSON body v → ReadsTraces v ps →
      serveUploadBody ms body = ((uploadTraces ms ps).1, if (uploadTraces ms ps).2 = true then .ok else .panic)) ∧
    ((¬ ∃ v ps, IsJSON body v ∧ ReadsTraces v ps) → serveUploadBody ms body = (ms, .badJSON)) := by
  constructor
  · intro v ps h1 h2
    simp only [serveUploadBody, parse_isJSON h1, serveTraceUpload, (readsTraces_iff v ps).2 h2]
    rcases uploadTraces ms ps with ⟨m, b⟩
    cases b <;> rfl
  · intro h
    simp only [serveUploadBody]
    cases hp : parseJSON body with
    | none => rfl
    | some v =>
      simp only [serveTraceUpload]
      cases hd : decodeSub v with
      | none => rfl
      | some ps => exact absurd ⟨v, ps, isJSON_of_parse hp, (readsTraces_iff v ps).1 hd⟩ h

/-- **C130** (permalinks).  Likewise for the trace in a permalink: it is the trace the value stands for, and without one nothing is
stored. -/
theorem permalink_language (ms : MemStore) (v : JVal) :
    (∀ p, ReadsTrace v p →
      servePermalink ms v = ((uploadTraces ms [p]).1, if (uploadTraces ms [p]).2 = true then .ok else .panic)) ∧
    ((¬ ∃ p, ReadsTrace v p) → servePermalink ms v = (ms, .badJSON)) := by
  constructor
  · intro p h
    simp only [servePermalink, (readsTrace_iff v p).2 h]
    rcases uploadTraces ms [p] with ⟨m, b⟩
    cases b <;> rfl
  · intro h
    simp only [servePermalink]
    cases hd : decodeTrace v with
    | none => rfl
    | some p => exact absurd ⟨p, (readsTrace_iff v p).1 hd⟩ h

/-- **C130** (permalinks, their text).  The first value of the text counts, and what follows it is ignored; a text that does not begin
with a value is refused. -/
theorem first_value_read {w t rest : Bytes} {v : JVal} (hw : Blank w) (ht : JText t v) (hv : ∀ i, v ≠ .num i) :
    parseFirst (w ++ (t ++ rest)) = some v := by
  rw [parseFirst, parseVal_text ht _ w rest hw (by simp only [List.length_append]; omega) (.inr hv)]
  rfl

/-- **C130** (permalinks, their text, continued). -/
theorem first_value_only {text : Bytes} {v : JVal} (h : parseFirst text = some v) :
    ∃ w t rest, text = w ++ (t ++ rest) ∧ Blank w ∧ JText t v := by
  rw [parseFirst, Option.map_eq_some_iff] at h
  obtain ⟨⟨v', r⟩, h1, rfl⟩ := h
  obtain ⟨w, t, h2, h3, h4⟩ := parseVal_sound _ _ _ _ h1
  exact ⟨w, t, r, h2, h3, h4⟩

/-- **C130** (text).  A string comes through JSON as it is exactly if it is UTF-8; otherwise every byte that belongs to no character
comes out as U+FFFD. -/
theorem json_string_read (s t : Bytes) : parseJSON (quoteString s) = some (.str t) ↔ Cleaned s t := by
  rw [json_string_roundtrip, cleaned_iff]
  simp [eq_comm]

/-- **C130** (text, continued). -/
theorem json_string_unchanged (s : Bytes) : parseJSON (quoteString s) = some (.str s) ↔ ValidUTF8 s := by
  rw [json_string_roundtrip, ← clean_valid_iff]
  simp

/-- **C130** (values).  Values are written as base64. -/
theorem value_base64 (b : Bytes) : Base64 (b64Encode b) b ∧ unbroken (b64Encode b) = b64Encode b := by
  have h : unbroken (b64Encode b) = b64Encode b := by
    unfold unbroken
    rw [List.filter_eq_self]
    intro c hc
    have := b64Encode_noNewline b c hc
    simp [this]
  exact ⟨h ▸ (base64_iff _ _).1 (b64_roundtrip b), h⟩

/-- **C130** (values).  A text that is base64 denotes one sequence of bytes. -/
theorem base64_unambiguous {s b b' : Bytes} (h : Base64 s b) (h' : Base64 s b') : b = b' := by
  rw [← b64Quads_iff] at h h'
  exact Option.some.inj (h.symm.trans h')

/-- What `UTF8Keys` asks of a trace. -/
theorem utf8Keys_iff (tr : Tree) : UTF8Keys tr ↔ ∀ sp ∈ tr.spans, ∀ a ∈ sp.annotations, ValidUTF8 a.key := by
  simp only [UTF8Keys, clean_valid_iff]

/-! ## Samples -/

/-- A body with names in odd spellings, an unknown member, a member given twice, and a value given as an array. -/
def sampleBody : Bytes :=
  b!" [{\"id\":{\"TRACE\":\"1f\",\"span\":5},\"annotationS\":[{\"key\":\"a\\ud83d\\ude00\",\"KEY\":null,\"value\":[104,105]}],\"x\":-0.5e+1,\"sub\":[null]}]\n"

set_option maxRecDepth 8000 in
example : (parseJSON sampleBody).bind decodeSub =
    some [.node ⟨⟨31, 5, 0⟩, [⟨[97, 240, 159, 152, 128], some b!"hi"⟩]⟩ [.nil]] := by rfl

/-- Members that are given again change what is there: the second `sub` adds the parent to the ID that the first one set; the third
annotation list brings back the key that was left behind when the second one was shorter. -/
def mergedBody : Bytes :=
  b!"[{\"Sub\":[{\"ID\":{\"Trace\":1,\"Span\":2}}],\"Sub\":[{\"ID\":{\"Parent\":9}},null],\"Annotations\":[{\"Key\":\"a\"},{\"Key\":\"b\"}],\"Annotations\":[{}],\"Annotations\":[{\"Value\":[7]},{}]}]"

set_option maxRecDepth 8000 in
example : (parseJSON mergedBody).bind decodeSub =
    some [.node ⟨⟨0, 0, 0⟩, [⟨b!"a", some [7]⟩, ⟨b!"b", none⟩]⟩ [.node ⟨⟨1, 2, 9⟩, []⟩ [], .nil]] := by rfl

/-- The sample is in the language. -/
example : ∃ v ps, IsJSON sampleBody v ∧ ReadsTraces v ps := by
  set_option maxRecDepth 8000 in
  have h : (parseJSON sampleBody).bind decodeSub =
    some [.node ⟨⟨31, 5, 0⟩, [⟨[97, 240, 159, 152, 128], some b!"hi"⟩]⟩ [.nil]] := by rfl
  obtain ⟨v, h1, h2⟩ := Option.bind_eq_some_iff.1 h
  exact ⟨v, _, isJSON_of_parse h1, (readsTraces_iff _ _).1 h2⟩

/-- What is not read is no JSON. -/
theorem not_json {text : Bytes} (h : parseJSON text = none) : ¬ ∃ v, IsJSON text v := by
  rintro ⟨v, hv⟩
  rw [parse_isJSON hv] at h
  cases h

/-- Bodies that are not: a leading zero, a member name without quotes, a comma too many, text after the value. -/
example : ¬ ∃ v, IsJSON b!"[01]" v := not_json rfl
example : ¬ ∃ v, IsJSON b!"{a:1}" v := not_json rfl
example : ¬ ∃ v, IsJSON b!"[1,]" v := not_json rfl
example : ¬ ∃ v, IsJSON b!"[] x" v := not_json rfl

example : ¬ ValidUTF8 [97, 195] := by rw [← clean_valid_iff]; decide

end Appdash
