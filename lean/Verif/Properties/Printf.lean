import Verif.Proofs.Printf

/-!
# C109: queries tagged with span IDs
-/

namespace Appdash

open Spec

/-- **C109** (the text).  The ID stands in the place of the first `%s`, the argument in that of the second, and nothing else is
changed, whatever bytes the argument consists of. -/
theorem format_text (id : SpanID) {pre mid post : Bytes} (hpre : 37 ∉ pre) (hmid : 37 ∉ mid) (hpost : 37 ∉ post) (q : Bytes) :
    id.format (pre ++ b!"%s" ++ mid ++ b!"%s" ++ post) [q] = some (pre ++ id.toText ++ mid ++ q ++ post) := by
  unfold SpanID.format
  simp only [List.append_assoc]
  rw [sprintf_lit hpre, sprintf_s, sprintf_lit hmid, sprintf_s]
  have := sprintf_lit hpost [] []
  rw [List.append_nil] at this
  rw [this]
  simp [sprintf, sprintfExtra]

/-- **C109** (unused arguments).  A query for which the format has no place is not dropped silently: it is reported at the end. -/
theorem format_unused_argument (id : SpanID) {pre post : Bytes} (hpre : 37 ∉ pre) (hpost : 37 ∉ post) (q : Bytes) :
    id.format (pre ++ b!"%s" ++ post) [q] = some (pre ++ id.toText ++ post ++ b!"%!(EXTRA string=" ++ q ++ b!")") := by
  unfold SpanID.format
  simp only [List.append_assoc]
  rw [sprintf_lit hpre, sprintf_s]
  have := sprintf_lit hpost [] [q]
  rw [List.append_nil] at this
  rw [this]
  simp [sprintf, sprintfExtra]

/-- **C109** (the database).  A query that `Format` tags with a comment is still the same query: what the database reads after the
comment is exactly the argument, for every ID, every query and every comment whose own words have no star.  The comment holds the ID.
In dialects with nested comments the words after the ID must not end with a slash. -/
theorem tagged_query (nested : Bool) (id : SpanID) {pre post sep : Bytes} (hpre : Harmless pre) (hpost : Harmless post)
    (hsep : 37 ∉ sep) (hl : nested = true → post.getLast? ≠ some 47) (q : Bytes) :
    ∃ text, id.format (b!"/*" ++ pre ++ b!"%s" ++ post ++ b!"*/" ++ sep ++ b!"%s") [q] = some text ∧
      statement nested text = some (sep ++ q) ∧ commentWords text = some (pre ++ id.toText ++ post) := by
  have h0 : (42 : UInt8) ∉ pre ++ id.toText ++ post := by
    simp only [List.mem_append, not_or]
    refine ⟨⟨hpre.2, fun h => ?_⟩, hpost.2⟩
    rcases spanText_byte id h with h | h
    · revert h; decide
    · revert h; unfold IsLowerHex; decide
  have h1 := format_text id (pre := b!"/*" ++ pre) (mid := post ++ b!"*/" ++ sep) (post := [])
    (by simp only [List.mem_append, not_or]; exact ⟨by decide, hpre.1⟩)
    (by simp only [List.mem_append, not_or]; exact ⟨⟨hpost.1, by decide⟩, hsep⟩) (by decide) q
  simp only [List.append_nil] at h1
  have h2 := statement_body nested h0 (fun hn => by
    cases post with
    | nil =>
      obtain ⟨s, c, hs, hc⟩ := spanText_last id
      rw [List.append_nil, hs, ← List.append_assoc, List.getLast?_append]
      simpa using hc
    | cons c r =>
      rw [List.getLast?_append]
      have := hl hn
      cases h : (c :: r).getLast? with
      | none => simp at h
      | some d => rw [h] at this; simpa using this) (sep ++ q)
  refine ⟨_, ?_, h2, ?_⟩
  · simpa [List.append_assoc] using h1
  · show commentWords (47 :: 42 :: (pre ++ id.toText ++ post ++ [42, 47] ++ (sep ++ q))) = _
    rw [commentWords, List.append_assoc _ [42, 47], List.cons_append, takeWhile_body h0]

/-- The ID can be read from the comment. -/
theorem tagged_query_id (nested : Bool) (id : SpanID) (q : Bytes) :
    ∃ text w, id.format b!"/* %s */ %s" [q] = some text ∧ statement nested text = some (32 :: q) ∧
      commentWords text = some (32 :: (w ++ [32])) ∧ parseSpanID w = .ok id := by
  obtain ⟨text, h1, h2, h3⟩ := tagged_query nested id (pre := [32]) (post := [32]) (sep := [32]) (by unfold Harmless; decide)
    (by unfold Harmless; decide) (by decide) (by simp) q
  exact ⟨text, id.toText, h1, h2, h3, span_id_text_roundtrip id⟩

/-- The format of span_test.go:69. -/
example : SpanID.format ⟨100, 300, 0⟩ b!"/* %s */ %s" [b!"SELECT 1"] = some b!"/* 0000000000000064/000000000000012c */ SELECT 1" := by
  rfl

/-- An attempt to leave the comment, in the query and in an ID, does not succeed. -/
example : (SpanID.format ⟨1, 2, 3⟩ b!"/*%s*/%s" [b!"a */ b %s"]).bind (statement true) = some b!"a */ b %s" := by rfl

/-- **C109** (the documented example).  With the format of the example in the documentation (span_test.go:86),
`/* %s/%s */ %s`, which expects two arguments for the ID, the query stands inside the comment, and the database reads an error message of
package fmt instead. -/
theorem documented_format_drops_query (nested : Bool) (id : SpanID) {q : Bytes} (hq : 42 ∉ q) :
    ∃ text, id.format b!"/* %s/%s */ %s" [q] = some text ∧ statement nested text = some b!" %!s(MISSING)" := by
  have h0 : (42 : UInt8) ∉ [32] ++ id.toText ++ [47] ++ q ++ [32] := by
    simp only [List.mem_append, not_or]
    refine ⟨⟨⟨⟨by decide, fun h => ?_⟩, by decide⟩, hq⟩, by decide⟩
    rcases spanText_byte id h with h | h
    · revert h; decide
    · revert h; unfold IsLowerHex; decide
  refine ⟨_, ?_, statement_body nested h0 (fun _ => by rw [List.getLast?_append]; simp) _⟩
  unfold SpanID.format
  have e : (b!"/* %s/%s */ %s" : Bytes) = b!"/* " ++ (b!"%s" ++ (b!"/" ++ (b!"%s" ++ (b!" */ " ++ b!"%s")))) := rfl
  rw [e, sprintf_lit (by decide), sprintf_s, sprintf_lit (by decide), sprintf_s, sprintf_lit (by decide)]
  have : sprintf b!"%s" [] = some b!"%!s(MISSING)" := rfl
  rw [this]
  simp [List.append_assoc]

example : (SpanID.format ⟨1, 2, 0⟩ b!"/* %s/%s */ %s" [b!"SELECT 1"]) =
    some b!"/* 0000000000000001/0000000000000002/SELECT 1 */ %!s(MISSING)" := by rfl

end Appdash
