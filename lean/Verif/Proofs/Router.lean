import Verif.Model.Router
import Verif.Proofs.Span

/-!
# Lemmas about the router
-/

namespace Appdash

theorem toText_ne_nil (i : ID) : i.toText ≠ [] := by
  intro h
  have := toText_length i
  rw [h] at this
  simp at this

theorem toText_no_slash (i : ID) : (47 : UInt8) ∉ i.toText := by
  intro h
  have := toText_lower i 47 h
  revert this
  unfold Spec.IsLowerHex
  decide

theorem toText_ne_of_length (i : ID) {s : Bytes} (h : s.length ≠ 16) : i.toText ≠ s := by
  rintro rfl
  exact h (toText_length i)

theorem urlToTrace_eq (t : ID) : urlToTrace t = b!"/traces" ++ 47 :: t.toText := by
  show b!"/traces" ++ 47 :: (t.toText ++ []) = _
  rw [List.append_nil]

theorem urlToTraceProfile_eq (t : ID) : urlToTraceProfile t = b!"/traces" ++ 47 :: (t.toText ++ b!"/profile") := rfl

theorem urlToTraceSpan_eq (t s : ID) : urlToTraceSpan t s = b!"/traces" ++ 47 :: (t.toText ++ 47 :: s.toText) := by
  show b!"/traces" ++ 47 :: (t.toText ++ 47 :: (s.toText ++ [])) = _
  rw [List.append_nil]

theorem urlToTraceSpanProfile_eq (t s : ID) :
    urlToTraceSpanProfile t s = b!"/traces" ++ 47 :: (t.toText ++ 47 :: (s.toText ++ b!"/profile")) := rfl

theorem splitOn_traces (r : Bytes) : splitOn 47 (b!"traces" ++ 47 :: r) = b!"traces" :: splitOn 47 r :=
  splitOn_append _ _ _ (by decide)

theorem pathParts_trace (t : ID) : pathParts (urlToTrace t) = some [b!"traces", t.toText] := by
  rw [urlToTrace_eq]
  show some (splitOn 47 (b!"traces" ++ 47 :: t.toText)) = _
  rw [splitOn_traces, splitOn_no_sep _ _ (toText_no_slash t)]

theorem pathParts_traceProfile (t : ID) :
    pathParts (urlToTraceProfile t) = some [b!"traces", t.toText, b!"profile"] := by
  rw [urlToTraceProfile_eq]
  show some (splitOn 47 (b!"traces" ++ 47 :: (t.toText ++ 47 :: b!"profile"))) = _
  rw [splitOn_traces, splitOn_append _ _ _ (toText_no_slash t), splitOn_no_sep _ _ (by decide)]

theorem pathParts_traceSpan (t s : ID) : pathParts (urlToTraceSpan t s) = some [b!"traces", t.toText, s.toText] := by
  rw [urlToTraceSpan_eq]
  show some (splitOn 47 (b!"traces" ++ 47 :: (t.toText ++ 47 :: s.toText))) = _
  rw [splitOn_traces, splitOn_append _ _ _ (toText_no_slash t), splitOn_no_sep _ _ (toText_no_slash s)]

theorem pathParts_traceSpanProfile (t s : ID) :
    pathParts (urlToTraceSpanProfile t s) = some [b!"traces", t.toText, s.toText, b!"profile"] := by
  rw [urlToTraceSpanProfile_eq]
  show some (splitOn 47 (b!"traces" ++ 47 :: (t.toText ++ 47 :: (s.toText ++ 47 :: b!"profile")))) = _
  rw [splitOn_traces, splitOn_append _ _ _ (toText_no_slash t), splitOn_append _ _ _ (toText_no_slash s),
    splitOn_no_sep _ _ (by decide)]

theorem splitOn_of_parts {p : Bytes} {ps : List Bytes} (h : pathParts p = some ps) : splitOn 47 p = [] :: ps := by
  cases p with
  | nil => simp [pathParts] at h
  | cons c s =>
    simp only [pathParts] at h
    split at h
    · rename_i hc
      subst hc
      simp only [Option.some.injEq] at h
      simp [splitOn, h]
    · simp at h

theorem not_static {p : Bytes} {ps : List Bytes} (h : pathParts p = some (b!"traces" :: ps)) :
    (b!"/static/").isPrefixOf p = false := by
  cases p with
  | nil => rfl
  | cons c s =>
    simp only [pathParts] at h
    split at h
    · rename_i hc
      subst hc
      simp only [Option.some.injEq] at h
      obtain ⟨_, h | ⟨s', h, _⟩⟩ := splitOn_cons _ _ _ _ h
      · rw [h.2]; rfl
      · rw [h]; rfl
    · simp at h

theorem id_ne (i : ID) : i.toText ≠ [] ∧ i.toText ≠ b!"." ∧ i.toText ≠ b!".." ∧ i.toText ≠ b!"profile" :=
  ⟨toText_ne_nil i, toText_ne_of_length i (by decide), toText_ne_of_length i (by decide), toText_ne_of_length i (by decide)⟩

theorem dispatch_trace (t : ID) : dispatch .get (urlToTrace t) = .to .trace [(b!"Trace", t.toText)] := by
  have hp := pathParts_trace t
  have hs := not_static hp
  obtain ⟨h1, h2, h3, h4⟩ := id_ne t
  simp [dispatch, hp, cleanParts, routes, findRoute, Pattern.matches, hs, matchSegs, h1, h2, h3]

theorem dispatch_traceProfile (t : ID) :
    dispatch .get (urlToTraceProfile t) = .to .traceProfile [(b!"Trace", t.toText)] := by
  have hp := pathParts_traceProfile t
  have hs := not_static hp
  obtain ⟨h1, h2, h3, h4⟩ := id_ne t
  simp [dispatch, hp, cleanParts, routes, findRoute, Pattern.matches, hs, matchSegs, h1, h2, h3]

theorem dispatch_traceSpan (t s : ID) :
    dispatch .get (urlToTraceSpan t s) = .to .traceSpan [(b!"Trace", t.toText), (b!"Span", s.toText)] := by
  have hp := pathParts_traceSpan t s
  have hs := not_static hp
  obtain ⟨h1, h2, h3, h4⟩ := id_ne t
  obtain ⟨k1, k2, k3, k4⟩ := id_ne s
  simp [dispatch, hp, cleanParts, routes, findRoute, Pattern.matches, hs, matchSegs, h1, h2, h3, k1, k2, k3, k4]

theorem dispatch_traceSpanProfile (t s : ID) :
    dispatch .get (urlToTraceSpanProfile t s) = .to .traceSpanProfile [(b!"Trace", t.toText), (b!"Span", s.toText)] := by
  have hp := pathParts_traceSpanProfile t s
  have hs := not_static hp
  obtain ⟨h1, h2, h3, h4⟩ := id_ne t
  obtain ⟨k1, k2, k3, k4⟩ := id_ne s
  simp [dispatch, hp, cleanParts, routes, findRoute, Pattern.matches, hs, matchSegs, h1, h2, h3, k1, k2, k3]

theorem pathBase_of_parts {p : Bytes} {ps : List Bytes} {q : Bytes} (h : pathParts p = some (ps ++ [q])) (hq : q ≠ []) :
    pathBase p = q := by
  unfold pathBase
  rw [splitOn_of_parts h]
  have : ([] :: (ps ++ [q])).filter (· ≠ []) = ps.filter (· ≠ []) ++ [q] := by
    simp [List.filter_append, hq]
  rw [this]
  simp

end Appdash
