import Verif.Proofs.Router

/-!
# Properties of the trace URLs

C54 the URLs built for traces, spans and profiles lead back to them.
-/

namespace Appdash

/-! ## C54 -/

/-- Property C54.  The router leads the URL of a trace, of a span, of a trace profile and of a span profile to the route it was
built for, with variables that parse back to the same IDs. -/
theorem urls_routed (t s : ID) :
    (∃ v, dispatch .get (urlToTrace t) = .to .trace v ∧ (AMap.get v b!"Trace").map parseID = some (.ok t) ∧
      AMap.get v b!"Span" = none) ∧
    (∃ v, dispatch .get (urlToTraceProfile t) = .to .traceProfile v ∧ (AMap.get v b!"Trace").map parseID = some (.ok t) ∧
      AMap.get v b!"Span" = none) ∧
    (∃ v, dispatch .get (urlToTraceSpan t s) = .to .traceSpan v ∧ (AMap.get v b!"Trace").map parseID = some (.ok t) ∧
      (AMap.get v b!"Span").map parseID = some (.ok s)) ∧
    ∃ v, dispatch .get (urlToTraceSpanProfile t s) = .to .traceSpanProfile v ∧
      (AMap.get v b!"Trace").map parseID = some (.ok t) ∧ (AMap.get v b!"Span").map parseID = some (.ok s) := by
  have ht := parseID_toText t
  have hs := parseID_toText s
  refine ⟨⟨_, dispatch_trace t, ?_, rfl⟩, ⟨_, dispatch_traceProfile t, ?_, rfl⟩, ⟨_, dispatch_traceSpan t s, ?_, ?_⟩,
    ⟨_, dispatch_traceSpanProfile t s, ?_, ?_⟩⟩
  · show some (parseID t.toText) = _; rw [ht]
  · show some (parseID t.toText) = _; rw [ht]
  · show some (parseID t.toText) = _; rw [ht]
  · show some (parseID s.toText) = _; rw [hs]
  · show some (parseID t.toText) = _; rw [ht]
  · show some (parseID s.toText) = _; rw [hs]

/-- What a GET request for a path shows, if a trace page or profile handler gets it. -/
def visit (lookup : ID → Except StoreErr Tree) (path : Bytes) : Option (Except ServeErr (Tree × Bool)) :=
  match dispatch .get path with
  | .to n vars => if servedByTrace n then some (serveTrace lookup path vars) else none
  | _ => none

/-- Property C54, end to end: visiting the URL of a trace shows that trace, visiting its profile URL shows its profile; if the
store does not return the trace, its error is shown. -/
theorem visit_trace (lookup : ID → Except StoreErr Tree) (t : ID) :
    visit lookup (urlToTrace t) = some ((lookup t).mapError .store |>.map (·, false)) ∧
      visit lookup (urlToTraceProfile t) = some ((lookup t).mapError .store |>.map (·, true)) := by
  have hb : pathBase (urlToTrace t) = t.toText :=
    pathBase_of_parts (ps := [b!"traces"]) (pathParts_trace t) (toText_ne_nil t)
  have hb' : pathBase (urlToTraceProfile t) = b!"profile" :=
    pathBase_of_parts (ps := [b!"traces", t.toText]) (pathParts_traceProfile t) (by decide)
  have hne : (t.toText == b!"profile") = false := by
    simpa using (id_ne t).2.2.2
  constructor
  · simp only [visit, dispatch_trace, servedByTrace]
    show some (serveTrace lookup (urlToTrace t) [(b!"Trace", t.toText)]) = _
    have hv : AMap.get [(b!"Trace", t.toText)] b!"Trace" = some t.toText := rfl
    have hw : AMap.get [(b!"Trace", t.toText)] b!"Span" = none := rfl
    simp only [serveTrace, hv, hw, Option.getD_some, Option.getD_none, parseID_toText, hb, hne]
    cases lookup t <;> rfl
  · simp only [visit, dispatch_traceProfile, servedByTrace]
    show some (serveTrace lookup (urlToTraceProfile t) [(b!"Trace", t.toText)]) = _
    have hv : AMap.get [(b!"Trace", t.toText)] b!"Trace" = some t.toText := rfl
    have hw : AMap.get [(b!"Trace", t.toText)] b!"Span" = none := rfl
    simp only [serveTrace, hv, hw, Option.getD_some, Option.getD_none, parseID_toText, hb']
    cases lookup t <;> rfl

/-- Property C54, end to end: visiting the URL of a span of a stored trace shows the subtree that `FindSpan` finds, or an error
if there is no such span; likewise for its profile. -/
theorem visit_span (lookup : ID → Except StoreErr Tree) (t s : ID) (tr : Tree) (h : lookup t = .ok tr) :
    (∀ sub, tr.findSpan s = some sub →
      visit lookup (urlToTraceSpan t s) = some (.ok (sub, false)) ∧
        visit lookup (urlToTraceSpanProfile t s) = some (.ok (sub, true))) ∧
      (tr.findSpan s = none → visit lookup (urlToTraceSpan t s) = some (.error .noSpan) ∧
        visit lookup (urlToTraceSpanProfile t s) = some (.error .noSpan)) := by
  have hb : pathBase (urlToTraceSpan t s) = s.toText :=
    pathBase_of_parts (ps := [b!"traces", t.toText]) (pathParts_traceSpan t s) (toText_ne_nil s)
  have hb' : pathBase (urlToTraceSpanProfile t s) = b!"profile" :=
    pathBase_of_parts (ps := [b!"traces", t.toText, s.toText]) (pathParts_traceSpanProfile t s) (by decide)
  have hne : (s.toText == b!"profile") = false := by
    simpa using (id_ne s).2.2.2
  have hv : AMap.get [(b!"Trace", t.toText), (b!"Span", s.toText)] b!"Trace" = some t.toText := rfl
  have hw : AMap.get [(b!"Trace", t.toText), (b!"Span", s.toText)] b!"Span" = some s.toText := rfl
  have h1 : visit lookup (urlToTraceSpan t s) =
      some (match tr.findSpan s with | none => .error .noSpan | some sub => .ok (sub, false)) := by
    simp only [visit, dispatch_traceSpan, servedByTrace]
    show some (serveTrace lookup (urlToTraceSpan t s) [(b!"Trace", t.toText), (b!"Span", s.toText)]) = _
    simp only [serveTrace, hv, hw, Option.getD_some, parseID_toText, h, hb, hne, ne_eq, toText_ne_nil, not_false_eq_true,
      if_true]
    cases tr.findSpan s <;> rfl
  have h2 : visit lookup (urlToTraceSpanProfile t s) =
      some (match tr.findSpan s with | none => .error .noSpan | some sub => .ok (sub, true)) := by
    simp only [visit, dispatch_traceSpanProfile, servedByTrace]
    show some (serveTrace lookup (urlToTraceSpanProfile t s) [(b!"Trace", t.toText), (b!"Span", s.toText)]) = _
    simp only [serveTrace, hv, hw, Option.getD_some, parseID_toText, h, hb', ne_eq, toText_ne_nil, not_false_eq_true,
      if_true]
    cases tr.findSpan s <;> rfl
  rw [h1, h2]
  constructor
  · intro sub hs; rw [hs]; exact ⟨rfl, rfl⟩
  · intro hs; rw [hs]; exact ⟨rfl, rfl⟩

/-- Property C54: different traces and spans have different URLs. -/
theorem urls_distinct (t s t' s' : ID) :
    (urlToTrace t = urlToTrace t' → t = t') ∧
      (urlToTraceSpan t s = urlToTraceSpan t' s' → t = t' ∧ s = s') ∧
      (urlToTraceProfile t = urlToTraceProfile t' → t = t') ∧
      (urlToTraceSpanProfile t s = urlToTraceSpanProfile t' s' → t = t' ∧ s = s') := by
  refine ⟨?_, ?_, ?_, ?_⟩
  · intro h
    have := congrArg pathParts h
    rw [pathParts_trace, pathParts_trace] at this
    simp only [Option.some.injEq, List.cons.injEq, true_and, and_true] at this
    exact toText_injective this
  · intro h
    have := congrArg pathParts h
    rw [pathParts_traceSpan, pathParts_traceSpan] at this
    simp only [Option.some.injEq, List.cons.injEq, true_and, and_true] at this
    exact ⟨toText_injective this.1, toText_injective this.2⟩
  · intro h
    have := congrArg pathParts h
    rw [pathParts_traceProfile, pathParts_traceProfile] at this
    simp only [Option.some.injEq, List.cons.injEq, true_and, and_true] at this
    exact toText_injective this
  · intro h
    have := congrArg pathParts h
    rw [pathParts_traceSpanProfile, pathParts_traceSpanProfile] at this
    simp only [Option.some.injEq, List.cons.injEq, true_and, and_true] at this
    exact ⟨toText_injective this.1, toText_injective this.2⟩

example : dispatch .get b!"/traces/0000000000000001/00000000000000ff" =
    .to .traceSpan [(b!"Trace", b!"0000000000000001"), (b!"Span", b!"00000000000000ff")] := by decide

example : urlToTraceSpanProfile 1 255 = b!"/traces/0000000000000001/00000000000000ff/profile" := by decide

example : dispatch .get b!"/traces/1/profile" = .to .traceProfile [(b!"Trace", b!"1")] ∧
    dispatch .post b!"/traces/upload" = .to .traceUpload [] ∧ dispatch .get b!"/traces//x" = .redirect := by decide

end Appdash
