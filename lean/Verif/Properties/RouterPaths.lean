import Verif.Proofs.RouterPaths

/-!
# Properties of the paths of trace pages

C54 the paths that lead to pages of traces.
-/

namespace Appdash

/-- Property C54, which other paths there are: exactly the paths `/traces/x`, `/traces/x/profile`, `/traces/x/y` and `/traces/x/y/profile`,
with names `x` and `y`, lead to pages and profiles of traces; the variables are the names.  A span is not called `profile`. -/
theorem page_paths (p : Bytes) (n : RouteName) (v : Vars) (hn : servedByTrace n = true) :
    dispatch .get p = .to n v ↔ ∃ x, PathName x ∧
      (n = .trace ∧ p = b!"/traces/" ++ x ∧ v = [(b!"Trace", x)] ∨
        n = .traceProfile ∧ p = b!"/traces/" ++ x ++ b!"/profile" ∧ v = [(b!"Trace", x)] ∨
        ∃ y, PathName y ∧
          (n = .traceSpan ∧ y ≠ b!"profile" ∧ p = b!"/traces/" ++ x ++ b!"/" ++ y ∧ v = [(b!"Trace", x), (b!"Span", y)] ∨
            n = .traceSpanProfile ∧ p = b!"/traces/" ++ x ++ b!"/" ++ y ++ b!"/profile" ∧ v = [(b!"Trace", x), (b!"Span", y)])) := by
  constructor
  · intro h
    unfold dispatch at h
    split at h
    · cases h
    · rename_i ps hp
      split at h
      · rename_i hc
        obtain ⟨ht, hs⟩ := parts_text hp
        have hq := page_path_names hc hs
        rcases findRoute_page hp hn h with ⟨x, rfl, hx, rfl, rfl⟩ | ⟨x, rfl, hx, rfl, rfl⟩ | ⟨x, y, rfl, hx, hy, hy', rfl, rfl⟩ | ⟨x, y, rfl, hx, hy, rfl, rfl⟩
        · exact ⟨x, hq x (by simp) hx, .inl ⟨rfl, by simpa using ht, rfl⟩⟩
        · exact ⟨x, hq x (by simp) hx, .inr (.inl ⟨rfl, by simpa using ht, rfl⟩)⟩
        · exact ⟨x, hq x (by simp) hx, .inr (.inr ⟨y, hq y (by simp) hy, .inl ⟨rfl, hy', by simpa using ht, rfl⟩⟩)⟩
        · exact ⟨x, hq x (by simp) hx, .inr (.inr ⟨y, hq y (by simp) hy, .inr ⟨rfl, by simpa using ht, rfl⟩⟩)⟩
      · cases h
  · rintro ⟨x, ⟨x1, x2, x3, x4⟩, ⟨rfl, rfl, rfl⟩ | ⟨rfl, rfl, rfl⟩ | ⟨y, ⟨y1, y2, y3, y4⟩, ⟨rfl, hy, rfl, rfl⟩ | ⟨rfl, rfl, rfl⟩⟩⟩
    · have hp : pathParts (b!"/traces/" ++ x) = some [b!"traces", x] := by
        simpa using pathParts_join (a := b!"traces") (ps := [x]) (by simp [x2])
      have hs := not_static hp
      revert hp hs
      generalize (_ : Bytes) ++ _ = p
      intro hp hs
      simp [dispatch, hp, cleanParts, routes, findRoute, Pattern.matches, hs, matchSegs, x1, x3, x4]
    · have hp : pathParts (b!"/traces/" ++ x ++ b!"/profile") = some [b!"traces", x, b!"profile"] := by
        simpa using pathParts_join (a := b!"traces") (ps := [x, b!"profile"]) (by simp [x2])
      have hs := not_static hp
      revert hp hs
      generalize (_ : Bytes) ++ _ = p
      intro hp hs
      simp [dispatch, hp, cleanParts, routes, findRoute, Pattern.matches, hs, matchSegs, x1, x3, x4]
    · have hp : pathParts (b!"/traces/" ++ x ++ b!"/" ++ y) = some [b!"traces", x, y] := by
        simpa using pathParts_join (a := b!"traces") (ps := [x, y]) (by simp [x2, y2])
      have hs := not_static hp
      revert hp hs
      generalize (_ : Bytes) ++ _ = p
      intro hp hs
      simp [dispatch, hp, cleanParts, routes, findRoute, Pattern.matches, hs, matchSegs, x1, x3, x4, y1, y3, y4, hy]
    · have hp : pathParts (b!"/traces/" ++ x ++ b!"/" ++ y ++ b!"/profile") = some [b!"traces", x, y, b!"profile"] := by
        simpa using pathParts_join (a := b!"traces") (ps := [x, y, b!"profile"]) (by simp [x2, y2])
      have hs := not_static hp
      revert hp hs
      generalize (_ : Bytes) ++ _ = p
      intro hp hs
      simp [dispatch, hp, cleanParts, routes, findRoute, Pattern.matches, hs, matchSegs, x1, x3, x4, y1, y3, y4]

/-- A path with an ID that is not sixteen digits long, and paths without a name for the trace or the span. -/
example : dispatch .get b!"/traces/7/ff" = .to .traceSpan [(b!"Trace", b!"7"), (b!"Span", b!"ff")] ∧ PathName b!"7" ∧ PathName b!"ff" :=
  ⟨by decide, by simp [PathName], by simp [PathName]⟩

example : dispatch .get b!"/traces/7/" = .notFound ∧ dispatch .get b!"/traces/" = .notFound ∧
    dispatch .get b!"/traces//profile" = .redirect := by decide

/-- Property C54, methods: all routes but the upload are for GET requests only, and exactly a POST request for `/traces/upload` is an upload. -/
theorem request_methods (m : Method) (p : Bytes) (n : RouteName) (v : Vars) :
    (n ≠ .traceUpload → dispatch m p = .to n v → m = .get) ∧
      (dispatch m p = .to .traceUpload v ↔ m = .post ∧ p = b!"/traces/upload" ∧ v = []) := by
  refine ⟨fun hn h => ?_, fun h => ?_, ?_⟩
  · obtain ⟨r, hr, rfl, rfl, -⟩ := findRoute_method (dispatch_findRoute h)
    simp only [routes, List.mem_cons, List.not_mem_nil, or_false] at hr
    rcases hr with rfl | rfl | rfl | rfl | rfl | rfl | rfl | rfl | rfl | rfl | rfl <;> first | rfl | exact absurd rfl hn
  · obtain ⟨r, hr, hn, rfl, hv⟩ := findRoute_method (dispatch_findRoute h)
    simp only [routes, List.mem_cons, List.not_mem_nil, or_false] at hr
    rcases hr with rfl | rfl | rfl | rfl | rfl | rfl | rfl | rfl | rfl | rfl | rfl <;> first | (cases hn; done) | skip
    simp only [Pattern.matches] at hv
    split at hv
    · cases hv
    · rename_i ps hp
      obtain ⟨ht, -⟩ := parts_text hp
      match ps, hv, ht with
      | [a, b], hv, ht =>
        simp only [matchSegs] at hv
        split at hv
        · split at hv
          · rename_i ha hb
            cases hv
            exact ⟨rfl, by rw [ht, ha, hb]; rfl, rfl⟩
          · cases hv
        · cases hv
      | [], hv, _ => simp [matchSegs] at hv
      | [a], hv, _ => simp [matchSegs] at hv
      | a :: b :: c :: r, hv, _ => simp [matchSegs] at hv
  · rintro ⟨rfl, rfl, rfl⟩
    decide

example : dispatch .get b!"/traces/upload" = .to .trace [(b!"Trace", b!"upload")] ∧ dispatch .post b!"/traces/1" = .notFound := by decide

end Appdash
