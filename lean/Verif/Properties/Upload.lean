import Verif.Proofs.Json
import Verif.Properties.Store

/-!
# C52, C53, C69, C70, C71: exporting and uploading traces
-/

namespace Appdash

open Spec

/-- A target store that has trace 2 but not trace 1. -/
def uploadTarget : List StoreOp := [.collect ⟨2, 7, 0⟩ [⟨b!"a", some b!"b"⟩], .collect ⟨1, 9, 0⟩ [], .delete [1]]

/-- A trace of three spans, one of whose parents is missing. -/
def uploadSource : List StoreOp :=
  [.collect ⟨1, 6, 5⟩ [], .collect ⟨1, 5, 0⟩ [⟨b!"k", some b!"v"⟩, ⟨b!"l", none⟩], .collect ⟨1, 8, 77⟩ []]

/-- Its tree. -/
def uploadTree : Tree :=
  .node ⟨⟨1, 5, 0⟩, [⟨b!"k", some b!"v"⟩, ⟨b!"l", none⟩]⟩ [.node ⟨⟨1, 6, 5⟩, []⟩ [], .node ⟨⟨1, 8, 77⟩, []⟩ []]

/-- **C52**.  Take any trace returned by a store whose keys are valid UTF-8 and in which no span other than the root is
parentless or is the root's declared parent.  Uploading its exported form into a store that does not have the trace
succeeds, and `Trace` then returns exactly the exported tree. -/
theorem upload_reproduces {ops ops' : List StoreOp} {ms ms' : MemStore} (h : MemStore.new.run ops = some ms)
    (h' : MemStore.new.run ops' = some ms') {t : ID} {tr : Tree} (hv : ms.view t = .found tr)
    (hn : ms'.view t = .notFound) (hk : UTF8Keys tr) (hr : TrueRoot tr) (nils : SpanID → Bool × Bool) :
    ∃ ms'', serveTraceUpload ms' (exportTrace nils tr) = (ms'', .ok) ∧ ms''.view t = .found tr := by
  have W := view_wellPlaced h hv
  have e : tr.span.id.trace = t := W.trace _ (span_mem_spans tr)
  obtain ⟨ms'', h1, h2⟩ := upload_single ⟨ops', h'⟩ tr (by rw [e]; exact hn)
  refine ⟨ms'', ?_, (view_after_spans h' W hn h2).2 hr⟩
  simp only [serveTraceUpload, decode_export nils tr hk, h1]

/-- **C52** (permalink).  The same for opening the trace's permalink. -/
theorem permalink_reproduces {ops ops' : List StoreOp} {ms ms' : MemStore} (h : MemStore.new.run ops = some ms)
    (h' : MemStore.new.run ops' = some ms') {t : ID} {tr : Tree} (hv : ms.view t = .found tr)
    (hn : ms'.view t = .notFound) (hk : UTF8Keys tr) (hr : TrueRoot tr) (nils : SpanID → Bool × Bool) :
    ∃ ms'', servePermalink ms' (encodeTrace nils tr) = (ms'', .ok) ∧ ms''.view t = .found tr := by
  have W := view_wellPlaced h hv
  have e : tr.span.id.trace = t := W.trace _ (span_mem_spans tr)
  obtain ⟨ms'', h1, h2⟩ := upload_single ⟨ops', h'⟩ tr (by rw [e]; exact hn)
  refine ⟨ms'', ?_, (view_after_spans h' W hn h2).2 hr⟩
  simp only [servePermalink, decode_link nils tr hk, h1]

/-- **C52** (when the condition holds).  If exactly one of the collected spans is parentless and no span has ID 0, the
tree satisfies the condition on the root. -/
theorem single_root_true {ops : List StoreOp} {ms : MemStore} (h : MemStore.new.run ops = some ms) {t r : ID}
    {tr : Tree} (hv : ms.view t = .found tr) (hz : ¬ Collected (live t ops) 0)
    (hr : ∀ s, declaredParent (live t ops) s = some 0 ↔ s = r) : TrueRoot tr := by
  obtain ⟨tr', hv', hp, hl⟩ := real_root_is_root h t hz ⟨r, (hr r).2 rfl⟩
  rw [hv] at hv'
  injection hv' with e
  subst e
  obtain ⟨-, hd⟩ := span_under_declared_parent h hv
  have hroot : tr.span.id.span = r := by
    have := (hd tr.span (span_mem_spans tr)).1
    rw [hp] at this
    exact (hr _).1 this
  have W := view_wellPlaced h hv
  intro sp hsp hne
  constructor
  · intro e
    have := (hd sp hsp).1
    rw [e] at this
    have e2 : sp.id.span = tr.span.id.span := ((hr _).1 this).trans hroot.symm
    -- no span occurs twice
    rw [spans_cons, List.mem_cons] at hsp
    have hn := W.nodup
    rw [spans_cons, List.map_cons, List.nodup_cons] at hn
    exact hn.1 (List.mem_map.2 ⟨sp, hsp.resolve_left hne, e2⟩)
  · rw [hp]
    intro e
    apply hz
    rw [collected_iff, ← e, (hd sp hsp).1]
    rfl

/-- **C52** (sub-traces).  The export of the sub-trace below a span reproduces exactly that sub-trace, if none of its
spans has ID 0. -/
theorem upload_subtree_reproduces {ops ops' : List StoreOp} {ms ms' : MemStore} (h : MemStore.new.run ops = some ms)
    (h' : MemStore.new.run ops' = some ms') {t : ID} {tr u : Tree} (hv : ms.view t = .found tr) (hu : Subtree u tr)
    (hne : u ≠ tr) (hz : ∀ sp ∈ u.spans, sp.id.span ≠ 0) (hn : ms'.view t = .notFound) (hk : UTF8Keys u)
    (nils : SpanID → Bool × Bool) :
    ∃ ms'', serveTraceUpload ms' (exportTrace nils u) = (ms'', .ok) ∧ ms''.view t = .found u := by
  obtain ⟨W, R⟩ := subtree_trueRoot hu (view_wellPlaced h hv) hne hz
  have e : u.span.id.trace = t := W.trace _ (span_mem_spans u)
  obtain ⟨ms'', h1, h2⟩ := upload_single ⟨ops', h'⟩ u (by rw [e]; exact hn)
  refine ⟨ms'', ?_, (view_after_spans h' W hn h2).2 R⟩
  simp only [serveTraceUpload, decode_export nils u hk, h1]

example : (MemStore.new.run uploadSource).map (fun ms => ms.view 1) = some (.found uploadTree) ∧
    (MemStore.new.run uploadTarget).map (fun ms => ms.view 1) = some .notFound := by decide_cbv

example : UTF8Keys uploadTree := by unfold UTF8Keys; decide
example : TrueRoot uploadTree := by unfold TrueRoot; decide
example : Subtree (.node ⟨⟨1, 6, 5⟩, []⟩ []) uploadTree :=
  .child (.refl _) (by simp [uploadTree, Tree.sub])

/-- **C69** (full statement, false).  Uploading the export of any trace into a store that does not have it reproduces
the trace. -/
def UploadAlwaysReproduces : Prop :=
  ∀ (ops ops' : List StoreOp) (ms ms' : MemStore) (t : ID) (tr : Tree) (nils : SpanID → Bool × Bool),
    MemStore.new.run ops = some ms → MemStore.new.run ops' = some ms' → ms.view t = .found tr →
    ms'.view t = .notFound → (serveTraceUpload ms' (exportTrace nils tr)).1.view t = .found tr

/-- A trace with two parentless spans comes back upside down. -/
theorem two_roots_swapped :
    (MemStore.new.run [.collect ⟨1, 5, 0⟩ [], .collect ⟨1, 6, 0⟩ []]).map (fun ms => ms.view 1) =
      some (.found (.node ⟨⟨1, 6, 0⟩, []⟩ [.node ⟨⟨1, 5, 0⟩, []⟩ []])) ∧
    (uploadTraces MemStore.new [.ofTree (.node ⟨⟨1, 6, 0⟩, []⟩ [.node ⟨⟨1, 5, 0⟩, []⟩ []])]).1.view 1 =
      .found (.node ⟨⟨1, 5, 0⟩, []⟩ [.node ⟨⟨1, 6, 0⟩, []⟩ []]) := by decide_cbv

/-- **C69** (refutation). -/
theorem upload_always_reproduces_false : ¬ UploadAlwaysReproduces := by
  intro H
  obtain ⟨ms, h⟩ := collect_never_panics [.collect ⟨1, 5, 0⟩ [], .collect ⟨1, 6, 0⟩ []]
  obtain ⟨e1, e2⟩ := two_roots_swapped
  rw [h] at e1
  have hv : ms.view 1 = .found (.node ⟨⟨1, 6, 0⟩, []⟩ [.node ⟨⟨1, 5, 0⟩, []⟩ []]) := by
    simpa using e1
  have := H _ [] ms MemStore.new 1 _ (fun _ => (true, true)) h rfl hv rfl
  have hd : decodeSub (exportTrace (fun _ => (true, true)) (.node ⟨⟨1, 6, 0⟩, []⟩ [.node ⟨⟨1, 5, 0⟩, []⟩ []])) =
      some [.ofTree (.node ⟨⟨1, 6, 0⟩, []⟩ [.node ⟨⟨1, 5, 0⟩, []⟩ []])] :=
    decode_export _ _ (by unfold UTF8Keys; decide)
  have h3 : (serveTraceUpload MemStore.new (exportTrace (fun _ => (true, true))
      (.node ⟨⟨1, 6, 0⟩, []⟩ [.node ⟨⟨1, 5, 0⟩, []⟩ []]))).1 =
      (uploadTraces MemStore.new [.ofTree (.node ⟨⟨1, 6, 0⟩, []⟩ [.node ⟨⟨1, 5, 0⟩, []⟩ []])]).1 := by
    simp only [serveTraceUpload, hd]
    generalize uploadTraces MemStore.new _ = r
    obtain ⟨m, b⟩ := r
    cases b <;> rfl
  rw [h3, e2] at this
  revert this
  decide

/-- **C69** (what holds, and exactly when).  For a trace with valid UTF-8 keys, the upload succeeds and reproduces the
trace if and only if no span other than the root is parentless or is the root's declared parent.  Missing from the full
statement: traces with such spans, and traces with keys that are not valid UTF-8. -/
theorem upload_reproduces_iff_partial {ops ops' : List StoreOp} {ms ms' : MemStore}
    (h : MemStore.new.run ops = some ms) (h' : MemStore.new.run ops' = some ms') {t : ID} {tr : Tree}
    (hv : ms.view t = .found tr) (hn : ms'.view t = .notFound) (hk : UTF8Keys tr) (nils : SpanID → Bool × Bool) :
    ∃ ms'', serveTraceUpload ms' (exportTrace nils tr) = (ms'', .ok) ∧ (ms''.view t = .found tr ↔ TrueRoot tr) := by
  have W := view_wellPlaced h hv
  have e : tr.span.id.trace = t := W.trace _ (span_mem_spans tr)
  obtain ⟨ms'', h1, h2⟩ := upload_single ⟨ops', h'⟩ tr (by rw [e]; exact hn)
  refine ⟨ms'', ?_, view_after_spans h' W hn h2⟩
  simp only [serveTraceUpload, decode_export nils tr hk, h1]

/-- The other way to fail: the root's declared parent is in the tree (below it). -/
theorem displaced_root_not_reproduced :
    (uploadTraces MemStore.new
      [.ofTree (.node ⟨⟨1, 3, 2⟩, []⟩ [.node ⟨⟨1, 4, 3⟩, []⟩ [], .node ⟨⟨1, 2, 1⟩, []⟩ []])]).1.view 1 =
      .found (.node ⟨⟨1, 2, 1⟩, []⟩ [.node ⟨⟨1, 3, 2⟩, []⟩ [.node ⟨⟨1, 4, 3⟩, []⟩ []]]) := by decide_cbv

/-- Keys that are not valid UTF-8 are changed by the export. -/
theorem invalid_key_changed :
    decodeSub (exportTrace (fun _ => (true, true)) (.node ⟨⟨1, 5, 0⟩, [⟨[255], none⟩]⟩ [])) =
      some [.ofTree (.node ⟨⟨1, 5, 0⟩, [⟨[239, 191, 189], none⟩]⟩ [])] := by rfl

/-- **C53**.  An upload, whether it succeeds or not, leaves every trace already stored unchanged, if all spans of each
uploaded trace carry its trace ID. -/
theorem upload_keeps_existing {ops : List StoreOp} {ms : MemStore} (h : MemStore.new.run ops = some ms) (body : JVal)
    (hu : ∀ ps, decodeSub body = some ps → ∀ p ∈ ps, PTree.Uniform p) (t : ID) (ht : ms.view t ≠ .notFound) :
    (serveTraceUpload ms body).1.view t = ms.view t := by
  unfold serveTraceUpload
  cases hd : decodeSub body with
  | none => rfl
  | some ps =>
    have := upload_keeps_aux ps ms ⟨ops, h⟩ (hu ps hd) t ht
    simp only
    generalize uploadTraces ms ps = r at this
    obtain ⟨m, b⟩ := r
    cases b <;> exact this

/-- **C53** (duplicates).  If the same trace ID occurs more than once in an upload, the first occurrence decides: the
trace becomes what uploading the first occurrence alone makes it. -/
theorem upload_first_wins {ops : List StoreOp} {ms : MemStore} (h : MemStore.new.run ops = some ms)
    (before after : List PTree) (s : Span) (subs : List PTree)
    (hu : ∀ p ∈ before ++ .node s subs :: after, PTree.Uniform p) (hf : PTree.NilFreeList before)
    (hb : ∀ p ∈ before, PTree.traceID? p ≠ some s.id.trace) (hn : ms.view s.id.trace = .notFound) :
    (uploadTraces ms (before ++ .node s subs :: after)).1.view s.id.trace =
      (uploadTraces ms [.node s subs]).1.view s.id.trace :=
  upload_first_aux ⟨ops, h⟩ before after s subs hu hf hb hn

example : (MemStore.new.run uploadTarget).map (fun ms => (ms.view 2, ms.view 1)) =
    some (.found (.node ⟨⟨2, 7, 0⟩, [⟨b!"a", some b!"b"⟩]⟩ []), .notFound) := by decide_cbv

example : PTree.Uniform (.node ⟨⟨1, 5, 0⟩, []⟩ [.node ⟨⟨1, 6, 5⟩, []⟩ [], .nil]) ∧
    PTree.traceID? (.node ⟨⟨3, 5, 0⟩, []⟩ []) ≠ some 1 := by
  refine ⟨?_, by decide⟩
  intro sp hsp
  simp [PTree.spansList, PTree.spans] at hsp
  rw [hsp]

/-- Both occurrences have trace ID 1; the first one is stored. -/
example : (uploadTraces MemStore.new
      [.ofTree (.node ⟨⟨1, 5, 0⟩, []⟩ []), .ofTree (.node ⟨⟨1, 6, 0⟩, []⟩ [])]).1.view 1 =
    .found (.node ⟨⟨1, 5, 0⟩, []⟩ []) := by decide_cbv

/-- **C70** (full statement, false).  No upload changes a trace already stored. -/
def UploadNeverAlters : Prop :=
  ∀ (ops : List StoreOp) (ms : MemStore) (ps : List PTree) (t : ID), MemStore.new.run ops = some ms →
    ms.view t ≠ .notFound → (uploadTraces ms ps).1.view t = ms.view t

/-- A sub-span that carries the ID of another trace is added to that trace. -/
theorem foreign_span_alters :
    (MemStore.new.run [.collect ⟨2, 7, 0⟩ []]).map (fun ms =>
      ((uploadTraces ms [.node ⟨⟨1, 5, 0⟩, []⟩ [.node ⟨⟨2, 8, 0⟩, []⟩ []]]).1.view 2, ms.view 2)) =
      some (.found (.node ⟨⟨2, 8, 0⟩, []⟩ [.node ⟨⟨2, 7, 0⟩, []⟩ []]), .found (.node ⟨⟨2, 7, 0⟩, []⟩ [])) := by
  decide_cbv

/-- **C70** (refutation). -/
theorem upload_never_alters_false : ¬ UploadNeverAlters := by
  intro H
  obtain ⟨ms, h⟩ := collect_never_panics [.collect ⟨2, 7, 0⟩ []]
  have e := foreign_span_alters
  rw [h] at e
  simp only [Option.map_some, Option.some.injEq, Prod.mk.injEq] at e
  have := H _ ms [.node ⟨⟨1, 5, 0⟩, []⟩ [.node ⟨⟨2, 8, 0⟩, []⟩ []]] 2 h (by rw [e.2]; simp)
  rw [e.1, e.2] at this
  revert this
  decide

/-- **C70** (what holds).  An upload changes no trace to which none of its spans belongs: besides those named by the
uploaded traces only traces named by their sub-spans are touched.  Missing from the full statement: uploads with
sub-spans of other traces. -/
theorem upload_alters_only_named_partial {ops : List StoreOp} {ms : MemStore} (h : MemStore.new.run ops = some ms)
    (ps : List PTree) (t : ID) (ht : ∀ sp ∈ PTree.spansList ps, sp.id.trace ≠ t) :
    (uploadTraces ms ps).1.view t = ms.view t :=
  upload_other ⟨ops, h⟩ ps t ht

/-- **C71** (full statement, false).  An upload that fails stores nothing. -/
def FailedUploadStoresNothing : Prop :=
  ∀ (ops : List StoreOp) (ms : MemStore) (body : JVal) (t : ID), MemStore.new.run ops = some ms →
    (serveTraceUpload ms body).2 ≠ .ok → (serveTraceUpload ms body).1.view t = ms.view t

/-- A list with a trace followed by null. -/
def traceThenNull : JVal := .arr [.obj [(b!"id", .obj [(b!"trace", .str b!"1"), (b!"SPAN", .num (some 5))])], .null]

theorem half_upload_stores :
    (serveTraceUpload MemStore.new traceThenNull).2 = .panic ∧
    (serveTraceUpload MemStore.new traceThenNull).1.view 1 = .found (.node ⟨⟨1, 5, 0⟩, []⟩ []) := by decide_cbv

/-- **C71** (refutation). -/
theorem failed_upload_stores_nothing_false : ¬ FailedUploadStoresNothing := by
  intro H
  obtain ⟨h1, h2⟩ := half_upload_stores
  have := H [] MemStore.new traceThenNull 1 rfl (by rw [h1]; decide)
  rw [h2] at this
  cases this

/-- **C71** (what holds).  A request whose JSON does not have the form of a list of traces stores nothing, and the
only other way to fail is a null in the list or in some `Sub`.  Missing from the full statement: lists with null. -/
theorem failed_upload_partial {ops : List StoreOp} {ms : MemStore} (h : MemStore.new.run ops = some ms) (body : JVal) :
    (serveTraceUpload ms body = (ms, .badJSON) ∧ decodeSub body = none) ∨
    ∃ ps, decodeSub body = some ps ∧ (serveTraceUpload ms body).1 = (uploadTraces ms ps).1 ∧
      (serveTraceUpload ms body).2 ≠ .badJSON ∧
      (PTree.NilFreeList ps → (serveTraceUpload ms body).2 = .ok) := by
  unfold serveTraceUpload
  cases hd : decodeSub body with
  | none => exact Or.inl ⟨rfl, rfl⟩
  | some ps =>
    right
    obtain ⟨-, -, -, h3⟩ := upload_run ps ms ⟨ops, h⟩
    refine ⟨ps, rfl, ?_⟩
    simp only
    generalize uploadTraces ms ps = r at h3
    obtain ⟨m, b⟩ := r
    cases b with
    | true => exact ⟨rfl, by simp, fun _ => rfl⟩
    | false =>
      refine ⟨rfl, by simp, fun hf => ?_⟩
      have := h3 hf
      cases this

example : decodeSub (.str b!"x") = none := by rfl

end Appdash
