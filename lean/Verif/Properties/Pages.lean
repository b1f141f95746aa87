import Verif.Proofs.Pages
import Verif.Proofs.Query
import Verif.Properties.JsonText
import Verif.Properties.Views
import Mathlib.Data.List.Forall2

/-!
# C83, C84: permalinks and the aggregate page
-/

namespace Appdash

open Spec

/-- **C83**, **C84**, **C85** (queries).  What a request asks for is the first setting of the key in the query string, in the form
`application/x-www-form-urlencoded`. -/
theorem query_settings (query key value : Bytes) : queryGet query key = value ↔ FirstSetting query key value :=
  queryGet_iff query key value

/-- **C83** (URLs).  The query string is what follows the first question mark. -/
theorem url_parts (url path query : Bytes) : cutAt 63 url = (path, query) ↔ URLParts url path query :=
  urlParts_iff url path query

example : FirstSetting b!"x&a=1;2&b%63=%41+b&bc=2" b!"bc" b!"A b" := (query_settings _ _ _).1 (by decide)

/-! ## C83 -/

/-- **C83**.  Suppose a server shows a page for some trace or sub-trace, whose keys are valid UTF-8 and in which no span other than
its root is parentless or is the root's declared parent.  Visiting the permalink on that page on any server that does not have the
trace shows a page with the same tree, the same timeline and the same profile URL; a copy of the trace is then stored there, and
every other trace is as before. -/
theorem permalink_shows_same {env : ViewEnv} {Z : Flate} (hZ : Z.Sound) {nils nils' : SpanID → Bool × Bool}
    {ops ops' : List StoreOp} {ms ms1 ms' : MemStore} (h : MemStore.new.run ops = some ms)
    (h' : MemStore.new.run ops' = some ms') {url : Bytes} {pg : TracePage}
    (hpg : visitURL env Z nils ms url = some (ms1, some (.ok (.page pg)))) (hk : UTF8Keys pg.trace) (hr : TrueRoot pg.trace)
    (hn : ms'.view pg.trace.span.id.trace = .notFound) :
    ∃ ms'' pg', visitURL env Z nils' ms' pg.permalink = some (ms'', some (.ok (.page pg'))) ∧
      pg'.trace = pg.trace ∧ pg'.showTimeline = pg.showTimeline ∧ pg'.visData = pg.visData ∧
      pg'.profileURL = pg.profileURL ∧ pg'.json = exportText nils' pg.trace ∧
      ms''.view pg.trace.span.id.trace = .found pg.trace ∧
      ∀ t, t ≠ pg.trace.span.id.trace → ms''.view t = ms'.view t := by
  obtain ⟨⟨ops1, h1⟩, t, tr0, hv, hu, htp⟩ := visitURL_page ⟨ops, h⟩ hpg
  have W0 := view_wellPlaced h1 hv
  have W : WellPlaced t pg.trace := by
    rcases subtree_wellPlaced hu W0 with e | ⟨W, -⟩
    · rw [e]; exact W0
    · exact W
  have e : pg.trace.span.id.trace = t := W.trace _ (span_mem_spans _)
  obtain ⟨ms'', hup, hrun⟩ := upload_single ⟨ops', h'⟩ pg.trace hn
  have hview := (view_after_spans h' W (by rw [← e]; exact hn) hrun).2 hr
  have hsp : servePermalink ms' (encodeTrace nils pg.trace) = (ms'', .ok) := by
    simp only [servePermalink, decode_link nils pg.trace hk, hup]
  have hl : ms''.lookup pg.trace.span.id.trace = .ok pg.trace := by
    rw [e]; simp only [MemStore.lookup, hview]
  refine ⟨ms'', { pg with permalink := permalinkURL Z nils' pg.trace, json := exportText nils' pg.trace }, ?_, rfl, rfl, rfl, rfl,
    rfl, by rw [e]; exact hview, fun u hne => ?_⟩
  · rw [(tracePage_ok htp).2.1, visitURL_permalink hZ, hsp]
    simp only [hl, tracePage_nils nils' htp]
  · refine view_other ⟨ops', h'⟩ hrun (fun sp hsp => ?_)
    rw [W.trace sp hsp, ← e]
    exact Ne.symm hne

/-- **C83** (pages of spans).  The condition on the root holds for every page that shows a proper part of a trace without a span
of ID 0. -/
theorem span_page_true_root {env : ViewEnv} {Z : Flate} {nils : SpanID → Bool × Bool} {ops : List StoreOp} {ms ms1 : MemStore}
    (h : MemStore.new.run ops = some ms) {url : Bytes} {pg : TracePage}
    (hpg : visitURL env Z nils ms url = some (ms1, some (.ok (.page pg)))) (hz : ∀ sp ∈ pg.trace.spans, sp.id.span ≠ 0)
    (hw : ms1.view pg.trace.span.id.trace ≠ .found pg.trace) : TrueRoot pg.trace := by
  obtain ⟨⟨ops1, h1⟩, t, tr0, hv, hu, -⟩ := visitURL_page ⟨ops, h⟩ hpg
  have W0 := view_wellPlaced h1 hv
  have e : pg.trace.span.id.trace = t := W0.trace _ (subtree_mem hu _ (span_mem_spans _))
  refine (subtree_trueRoot hu W0 ?_ hz).2
  rintro rfl
  exact hw (by rw [e]; exact hv)

/-- **C83** (existing traces).  On a server that has the trace, the permalink stores nothing and shows the trace as it is there. -/
theorem permalink_keeps_existing {env : ViewEnv} {Z : Flate} (hZ : Z.Sound) {nils nils' : SpanID → Bool × Bool}
    {ms : MemStore} (tr tr' : Tree) (hv : ms.view tr.span.id.trace = .found tr') :
    visitURL env Z nils' ms (permalinkURL Z nils tr) = some (ms, tracePage env Z nils' tr') := by
  have hp : ms.tracePtr tr.span.id.trace ≠ none := by
    rw [ne_eq, ← view_notFound_iff, hv]; simp
  have hsp : servePermalink ms (encodeTrace nils tr) = (ms, .ok) := by
    have hd : decodeTrace (encodeTrace nils tr) = some (PTree.ofTree (cleanTree tr)) := decodeTrace_encode nils tr
    simp only [servePermalink, hd]
    cases tr with
    | node s ts =>
      obtain ⟨a, ha⟩ := Option.ne_none_iff_exists'.1 hp
      have ha' : ms.tracePtr s.id.trace = some a := ha
      simp only [cleanTree, PTree.ofTree, uploadTraces, ha']
  rw [visitURL_permalink hZ, hsp]
  simp only [MemStore.lookup, hv]

/-- **C83** (the encoder is not closed).  The link does not contain the last bytes of the compressed trace if their number is not
divisible by 3. -/
theorem permalink_cut (Z : Flate) (nils : SpanID → Bool × Bool) (tr : Tree) :
    decodeURL64 (queryGet (permalinkQuery Z nils tr) b!"permalink") =
      (Z.gzip (linkText nils tr)).take ((Z.gzip (linkText nils tr)).length - (Z.gzip (linkText nils tr)).length % 3) := by
  rw [queryGet_permalink, decodeURL64_encode]

/-- **C83** (whole links).  A link whose encoder was closed, wherever a mailer has broken it into lines, leads to the same page as the link
without its last bytes. -/
theorem whole_link_same {Z : Flate} (hZ : Z.Sound) (nils : SpanID → Bool × Bool) (tr : Tree) (ms : MemStore) {link : Bytes}
    (h : link.filter (fun c => decide (c ≠ 10 ∧ c ≠ 13)) = rawURL64 (Z.gzip (linkText nils tr))) :
    decodeURL64 link = Z.gzip (linkText nils tr) ∧
      openPermalink Z ms link = openPermalink Z ms (queryGet (permalinkQuery Z nils tr) b!"permalink") := by
  have e : decodeURL64 link = Z.gzip (linkText nils tr) := by rw [decodeURL64, h, decodeQuads_raw]
  refine ⟨e, ?_⟩
  rw [queryGet_permalink, openPermalink_encode hZ]
  obtain ⟨eof, hg⟩ := gunzip_cut hZ (linkText nils tr) (k := 0) (by omega)
  rw [Nat.sub_zero, List.take_length] at hg
  simp only [openPermalink, e, hg, decodeStream_link]

/-- The text of one byte, broken into lines. -/
example : decodeURL64 b!"_\nw" = [255] ∧ rawURL64 [255] = b!"_w" := by decide

/-- **C83** (any link).  Whatever URL is visited: the store afterwards is reached by collecting spans of a trace in the link, and a
trace to which none of these belongs is as before.  Without a permalink nothing changes. -/
theorem visit_changes_only_link {env : ViewEnv} {Z : Flate} {nils : SpanID → Bool × Bool} {ops : List StoreOp}
    {ms ms' : MemStore} (h : MemStore.new.run ops = some ms) {url : Bytes} {r : View PageErr Shown}
    (hv : visitURL env Z nils ms url = some (ms', r)) :
    ms' = ms ∨ (queryGet (cutAt 63 url).2 b!"permalink" ≠ [] ∧
      ∃ d eof v p, Z.gunzip (decodeURL64 (queryGet (cutAt 63 url).2 b!"permalink")) = some (d, eof) ∧
        decodeStream d eof = some v ∧ decodeTrace v = some p ∧ ms' = (uploadTraces ms [p]).1 ∧
        ∀ t, (∀ sp ∈ PTree.spans p, sp.id.trace ≠ t) → ms'.view t = ms.view t) := by
  unfold visitURL at hv
  split at hv
  on_goal 2 => cases hv
  split at hv
  on_goal 2 => cases hv
  injection hv with hv
  unfold serveTraceRequest at hv
  split at hv
  on_goal 2 => exact .inl (congrArg Prod.fst hv).symm
  rename_i hq
  have e : ms' = (openPermalink Z ms (queryGet (cutAt 63 url).2 b!"permalink")).1 := by
    generalize openPermalink Z ms (queryGet (cutAt 63 url).2 b!"permalink") = r at hv
    obtain ⟨m, u⟩ := r
    cases u <;> exact (congrArg Prod.fst hv).symm
  subst e
  unfold openPermalink
  cases hg : Z.gunzip (decodeURL64 (queryGet (cutAt 63 url).2 b!"permalink")) with
  | none => exact .inl rfl
  | some x =>
    obtain ⟨d, eof⟩ := x
    simp only
    cases hs : decodeStream d eof with
    | none => exact .inl rfl
    | some v =>
      simp only [servePermalink]
      cases hd : decodeTrace v with
      | none => exact .inl rfl
      | some p =>
        refine .inr ⟨hq, d, eof, v, p, rfl, hs, hd, ?_⟩
        have hu : ∀ t, (∀ sp ∈ PTree.spansList [p], sp.id.trace ≠ t) → (uploadTraces ms [p]).1.view t = ms.view t :=
          fun t ht => upload_other ⟨ops, h⟩ [p] t ht
        have hl : PTree.spansList [p] = PTree.spans p := by simp [PTree.spansList]
        rw [hl] at hu
        simp only
        generalize uploadTraces ms [p] = r at hu
        obtain ⟨m, b⟩ := r
        cases b <;> exact ⟨rfl, hu⟩

/-- A (bad) compression: every byte is preceded by a one, the end is marked by a zero. -/
def sampleFlate : Flate where
  deflate d := d.flatMap (fun b => [1, b]) ++ [0]
  inflate := go
  crc _ := [0, 0, 0, 0]
where
  /-- Its inverse. -/
  go : Bytes → Bytes × Option Bytes
    | 1 :: b :: r => (b :: (go r).1, (go r).2)
    | 0 :: r => ([], some r)
    | _ => ([], none)

/-- The assumption on the compression can be met. -/
theorem sampleFlate_sound : sampleFlate.Sound := by
  refine ⟨fun d rest => ?_, fun _ => rfl⟩
  show sampleFlate.go (d.flatMap (fun b => [1, b]) ++ [0] ++ rest) = _
  induction d with
  | nil => rfl
  | cons b d ih =>
    simp only [List.flatMap_cons, List.append_assoc, List.cons_append, List.nil_append] at ih ⊢
    rw [sampleFlate.go, ih]

set_option maxRecDepth 3000 in
/-- A page is shown for the trace of the example of C52, whose keys are valid UTF-8 and whose root is a true root, and one for a
span of it. -/
example : (MemStore.new.run uploadSource).map (fun ms =>
      [urlToTrace 1, urlToTraceSpan 1 6].map fun url =>
        match visitURL sampleEnv sampleFlate (fun _ => (true, true)) ms url with
        | some (_, some (.ok (.page pg))) => some pg.trace
        | _ => none) =
    some [some uploadTree, some (.node ⟨⟨1, 6, 5⟩, []⟩ [])] := by decide_cbv

set_option maxRecDepth 3000 in
/-- Here one byte is missing in the link. -/
example : (sampleFlate.gzip (linkText (fun _ => (true, true)) (.node ⟨⟨1, 5, 0⟩, []⟩ []))).length % 3 = 1 := by decide_cbv

example : queryGet b!"a=b;c&x=%41+b&permalink=A-_9&permalink=2" b!"permalink" = b!"A-_9" ∧
    queryGet b!"a=b;c&x=%41+b&permalink=A-_9" b!"x" = b!"A b" ∧ queryGet b!"a=%4" b!"a" = [] := by decide

/-! ## C84 -/

/-- **C84**.  If the query selects distinct trace IDs, the aggregate page aggregates exactly the trees that `Trace` returns for
these IDs, each once, in whatever order the store lists its traces; IDs without a trace are ignored. -/
theorem aggregate_selection {env : ViewEnv} {ops : List StoreOp} {ms : MemStore} (h : MemStore.new.run ops = some ms)
    (ptrs : List Addr) (hp : ptrs.Perm (ms.tracesPtr {})) {query : Bytes} {ids : List ID} (hi : ids.Nodup)
    (hs : queryGet query b!"selection" ≠ [])
    (hq : (splitOn 44 (queryGet query b!"selection")).map parseID = ids.map .ok) :
    ∃ trs sel, ms.tracesView ptrs = some trs ∧
      serveAggregate env trs query = aggPage env (parseAggMode (queryGet query b!"view-mode")) sel ∧
      (∀ tr, tr ∈ sel ↔ ∃ t ∈ ids, ms.view t = .found tr) ∧ (sel.map fun tr => tr.span.id.trace).Nodup := by
  obtain ⟨trs, h1, h2, h3⟩ := traces_lists_all h {} ptrs hp
  refine ⟨trs, _, h1, ?_, ?_, selected_nodup h3 hi⟩
  · simp only [serveAggregate, hs, ne_eq, not_false_eq_true, if_true, selectTraces_ok trs _ ids hq]
  · intro tr
    rw [List.mem_flatMap]
    constructor
    · rintro ⟨i, hi, hm⟩
      obtain ⟨hm, e⟩ := List.mem_filter.1 hm
      simp only [decide_eq_true_eq] at e
      obtain ⟨t, ht⟩ := (h2 tr).1 hm
      have := (view_wellPlaced h ht).trace _ (span_mem_spans tr)
      exact ⟨t, by rw [← this, e]; exact hi, ht⟩
    · rintro ⟨t, hi, ht⟩
      have := (view_wellPlaced h ht).trace _ (span_mem_spans tr)
      exact ⟨t, hi, List.mem_filter.2 ⟨(h2 tr).2 ⟨t, ht⟩, by simp [this]⟩⟩

/-- **C84** (the texts of IDs).  The hypothesis on the query holds for the list of the IDs' texts. -/
theorem selection_texts (ids : List ID) (hne : ids ≠ []) :
    (splitOn 44 (commaJoin (ids.map ID.toText))).map parseID = ids.map .ok ∧ commaJoin (ids.map ID.toText) ≠ [] := by
  have nc : ∀ i : ID, (44 : UInt8) ∉ i.toText := by
    intro i h
    have := toText_lower _ _ h
    unfold Spec.IsLowerHex at this
    revert this
    decide
  induction ids with
  | nil => exact absurd rfl hne
  | cons i ids ih =>
    cases ids with
    | nil =>
      simp only [List.map_cons, List.map_nil, commaJoin]
      exact ⟨by rw [splitOn_no_sep _ _ (nc i)]; simp [parseID_toText], toText_ne_nil i⟩
    | cons j ids =>
      simp only [List.map_cons, commaJoin] at ih ⊢
      rw [splitOn_append _ _ _ (nc i)]
      refine ⟨?_, by simp⟩
      rw [List.map_cons, (ih (by simp)).1, parseID_toText]

/-- **C84** (modes).  The page aggregates spans if its URL says `span-only`, spans by trace if it says `trace-and-span`, and traces if it says anything
else or nothing. -/
theorem view_modes (s : Bytes) :
    (parseAggMode s = .spanOnly ↔ s = b!"span-only") ∧ (parseAggMode s = .traceAndSpan ↔ s = b!"trace-and-span") ∧
      (parseAggMode s = .traceOnly ↔ s ≠ b!"span-only" ∧ s ≠ b!"trace-and-span") := by
  unfold parseAggMode
  by_cases h1 : s = b!"trace-only"
  · subst h1; decide
  · by_cases h2 : s = b!"span-only"
    · subst h2; decide
    · by_cases h3 : s = b!"trace-and-span"
      · subst h3; decide
      · simp [h1, h2, h3]

example : parseAggMode (queryGet b!"selection=2&view-mode=span-only" b!"view-mode") = .spanOnly := by decide

/-- **C84** (no selection).  Without a selection all traces are aggregated. -/
theorem aggregate_all (env : ViewEnv) (traces : List Tree) (query : Bytes) (hs : queryGet query b!"selection" = []) :
    serveAggregate env traces query = aggPage env (parseAggMode (queryGet query b!"view-mode")) traces := by
  simp only [serveAggregate, hs, ne_eq, not_true_eq_false, if_false]

/-- **C84** (bad IDs).  If a part of the selection is not an ID, an error is shown instead. -/
theorem aggregate_bad_id (env : ViewEnv) (traces : List Tree) (query : Bytes) (hs : queryGet query b!"selection" ≠ [])
    (hb : ∃ s ∈ splitOn 44 (queryGet query b!"selection"), ∃ e, parseID s = .error e) :
    ∃ e, serveAggregate env traces query = some (.error (.badID e)) := by
  obtain ⟨e, he⟩ := selectTraces_error traces _ hb
  exact ⟨e, by simp only [serveAggregate, hs, ne_eq, not_false_eq_true, if_true, he]⟩

/-- **C84** (why the IDs must be distinct).  A trace that is selected twice counts twice. -/
theorem aggregate_twice : serveAggregate sampleEnv [fiveTrace] b!"selection=2,2" = some (.ok [(b!"x", 10000)]) ∧
    serveAggregate sampleEnv [fiveTrace] b!"selection=2" = some (.ok [(b!"x", 5000)]) := by decide_cbv

/-- **C84** (list of traces).  The traces page asks the store for exactly the IDs in the parameter `show`. -/
theorem show_ids {query : Bytes} {ids : List ID} (hne : ids ≠ []) (hq : queryGet query b!"show" = commaJoin (ids.map ID.toText)) :
    showIDs query = ids := by
  obtain ⟨h1, h2⟩ := selection_texts ids hne
  simp only [showIDs, hq, h2, ne_eq, not_false_eq_true, if_true]
  generalize splitOn 44 (commaJoin (ids.map ID.toText)) = ss at h1
  clear hq h2 hne
  induction ss generalizing ids with
  | nil =>
    cases ids with
    | nil => rfl
    | cons i ids => cases h1
  | cons s ss ih =>
    cases ids with
    | nil => cases h1
    | cons i ids =>
      simp only [List.map_cons, List.cons.injEq] at h1
      rw [List.filterMap_cons]
      simp only [h1.1, ih h1.2]

example : queryGet b!"selection=0000000000000001%2C0000000000000002&view-mode=trace" b!"selection" =
    commaJoin (([1, 2] : List ID).map ID.toText) := by decide_cbv

end Appdash
