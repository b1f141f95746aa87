import Verif.Proofs.Html
import Verif.Properties.AnnotationView
import Verif.Properties.UploadMany
import Verif.Properties.Views
import Verif.Proofs.Links

/-!
# C94 and C95: collected text on the pages
-/

namespace Appdash

open Spec

/-! ## Tables -/

/-- **C94** (text).  Whatever a string is, a browser reads its escaped form as text, and shows the string, with U+FFFD for zero
bytes. -/
theorem escaped_read (s : Bytes) : htmlTokens (htmlEscape s) = textToken (shownBytes s) := by
  have := scan_escaped s []
  rw [List.append_nil] at this
  rw [htmlTokens, this]
  show textToken (decodeRefs (htmlEscape s)) = _
  rw [decodeRefs_escape]

/-- What a browser reads of the view of all annotations of any span. -/
theorem verbose_read (s : Span) : htmlTokens (verboseViewHTML s) = [.tag b!"ul id=\"verboseDataView\" class=\"traces\""] ++
    spanTokens s.id.span.toText s.id.toText (if annotationsName s.annotations = [] then s.id.span.toText else annotationsName s.annotations)
      (s.annotations ≠ []) (verboseRows s.annotations) ++ [.tag b!"/ul"] := by
  have e1 : ∀ r, htmlScan .data [] (b!"<ul id=\"verboseDataView\" class=\"traces\">" ++ r) =
      .tag b!"ul id=\"verboseDataView\" class=\"traces\"" :: htmlScan .data [] r := fun r => rfl
  unfold htmlTokens verboseViewHTML
  rw [e1, scan_span]
  simp only [spanTitle, ite_not, List.cons_append, List.nil_append, ne_eq]
  rfl

/-- **C94** (the short table).  What a browser reads of the view of the important annotations of any span. -/
theorem short_read (reg : Registry) (s : Span) : htmlTokens (dataViewHTML reg s) = [.tag b!"ul id=\"dataView\" class=\"traces\""] ++
    spanTokens s.id.span.toText s.id.toText (if annotationsName s.annotations = [] then s.id.span.toText else annotationsName s.annotations)
      (s.annotations ≠ []) (shortRows reg s.annotations) ++ [.tag b!"/ul"] := by
  have e1 : ∀ r, htmlScan .data [] (b!"<ul id=\"dataView\" class=\"traces\">" ++ r) =
      .tag b!"ul id=\"dataView\" class=\"traces\"" :: htmlScan .data [] r := fun r => rfl
  unfold htmlTokens dataViewHTML
  rw [e1, scan_span]
  simp only [spanTitle, ite_not, List.cons_append, List.nil_append, ne_eq]
  rfl

/-- **C94** (tables).  Whatever was collected, a browser reads the view of all annotations of a span as a table with one row for each
collected annotation with a public key, in the order of collection, whose cells hold the key and the value as text. -/
theorem table_read {ops : List StoreOp} {ms : MemStore} (h : MemStore.new.run ops = some ms) {t : ID} {tr : Tree}
    (hv : ms.view t = .found tr) : ∀ sp ∈ tr.spans, htmlTokens (verboseViewHTML sp) =
      [.tag b!"ul id=\"verboseDataView\" class=\"traces\""] ++
      spanTokens sp.id.span.toText sp.id.toText
        (if annotationsName sp.annotations = [] then sp.id.span.toText else annotationsName sp.annotations)
        (annotationsOf (live t ops) sp.id.span ≠ [])
        (((annotationsOf (live t ops) sp.id.span).filter fun a => PublicKey a.key).map fun a => (a.key, a.value.getD [])) ++
      [.tag b!"/ul"] := by
  intro sp hsp
  rw [verbose_read, page_shows_annotations h hv sp hsp]
  simp only [annotations_complete h hv sp hsp]

/-- **C94** (no markup).  The tags that a browser finds in the view of a span depend on nothing but the IDs of the span, on whether it
has annotations, and on the number of rows. -/
theorem markup_fixed (s s' : Span) (hid : s.id = s'.id) (ha : s.annotations = [] ↔ s'.annotations = [])
    (hl : (verboseRows s.annotations).length = (verboseRows s'.annotations).length) :
    (htmlTokens (verboseViewHTML s)).filter (fun t => match t with | .tag _ => true | .text _ => false) =
      (htmlTokens (verboseViewHTML s')).filter fun t => match t with | .tag _ => true | .text _ => false := by
  rw [verbose_read, verbose_read, hid]
  have htx : ∀ x, (textToken x).filter (fun t => match t with | .tag _ => true | .text _ => false) = [] := by
    intro x
    unfold textToken
    split <;> rfl
  have hrows : ∀ r r' : List (Bytes × Bytes), r.length = r'.length →
      (r.flatMap rowTokens).filter (fun t => match t with | .tag _ => true | .text _ => false) =
      (r'.flatMap rowTokens).filter (fun t => match t with | .tag _ => true | .text _ => false) := by
    intro r
    induction r with
    | nil => intro r' h; rw [List.length_eq_zero_iff.1 h.symm]
    | cons x r ih =>
      intro r' h
      cases r' with
      | nil => cases h
      | cons y r' =>
        simp only [List.flatMap_cons, List.filter_append, ih r' (by simpa using h), rowTokens, htx]
  have hp : (s.annotations ≠ []) = (s'.annotations ≠ []) := by simp only [ne_eq, ha]
  simp only [spanTokens, List.filter_append, htx]
  by_cases h0 : s'.annotations = []
  · simp [h0, ha.2 h0]
  · have h1 : s.annotations ≠ [] := fun e => h0 (ha.1 e)
    simp only [ne_eq, h0, h1, not_false_eq_true, if_true, List.filter_append, hrows _ _ hl]

/-! ## The list of traces -/

/-- **C94** (the list).  Whatever traces are listed, the boxes of the list carry, as the browser reads them, exactly the JSON texts of
the traces, in order. -/
theorem list_texts (reg : Registry) (nils : SpanID → Bool × Bool) (trs : List Tree) :
    attrsOf b!"input" b!"data-json-trace" (htmlTokens (tracesHTML reg nils trs)) = trs.map (traceText nils) := by
  have e1 : ∀ r, htmlScan .data [] (b!"<ul class=\"list-unstyled\">" ++ r) =
      [HtmlToken.tag b!"ul class=\"list-unstyled\""] ++ htmlScan .data [] r := fun r => rfl
  have e2 : htmlScan .data [] b!"</ul>" = [.tag b!"/ul"] := rfl
  have e3 : attrsOf b!"input" b!"data-json-trace" [.tag b!"ul class=\"list-unstyled\""] = [] := rfl
  have e4 : attrsOf b!"input" b!"data-json-trace" [.tag b!"/ul"] = [] := rfl
  unfold htmlTokens tracesHTML
  rw [e1, scan_items, e2, attrsOf_append, attrsOf_append, e3, e4, attrsOf_flatMap]
  simp only [attrsOf_item, List.nil_append, List.append_nil]
  induction trs with
  | nil => rfl
  | cons x trs ih =>
    rw [List.flatMap_cons, ih, shownBytes_of (s := traceText nils x) fun h => (print_script Layout.indent_blank _ _ _ h).1 rfl]
    rfl

/-- **C94** (selections).  List traces of a store, with valid UTF-8 keys, in each of which no span other than the root is parentless
or is the root's declared parent; check any boxes; upload any JSON text of what the script of the page collects from the checked boxes
into another store.  The upload succeeds, every checked trace that the other store did not have is then returned exactly, and all
other traces of the other store are as before. -/
theorem list_upload {ops ops' : List StoreOp} {ms ms' : MemStore} (h : MemStore.new.run ops = some ms)
    (h' : MemStore.new.run ops' = some ms') {all : List (ID × Tree)} (hv : ∀ p ∈ all, ms.view p.1 = .found p.2)
    (hd : (all.map Prod.fst).Nodup) (hk : ∀ p ∈ all, UTF8Keys p.2 ∧ TrueRoot p.2) (reg : Registry) (nils : SpanID → Bool × Bool)
    (checked : List Bool) :
    ∃ vs, selectedTraces (attrsOf b!"input" b!"data-json-trace" (htmlTokens (tracesHTML reg nils (all.map Prod.snd)))) checked =
        some vs ∧ ∀ text, IsJSON text (.arr vs) →
      ∃ ms'', serveUploadBody ms' text = (ms'', .ok) ∧
        (∀ p, (p, true) ∈ all.zip checked → ms'.view p.1 = .notFound → ms''.view p.1 = .found p.2) ∧
        ∀ t, (ms'.view t ≠ .notFound ∨ ∀ p, (p, true) ∈ all.zip checked → p.1 ≠ t) → ms''.view t = ms'.view t := by
  rw [list_texts]
  have hsel : ∀ (all : List (ID × Tree)) (checked : List Bool),
      selectedTraces ((all.map Prod.snd).map (traceText nils)) checked =
      some ((((all.zip checked).filter fun p => p.2).map Prod.fst).map fun p => encodeTrace nils p.2) := by
    intro all
    induction all with
    | nil => intro c; rfl
    | cons p all ih =>
      intro c
      cases c with
      | nil => rfl
      | cons b c =>
        have := ih c
        unfold selectedTraces at this ⊢
        cases b
        · simpa using this
        · have hp : parseJSON (traceText nils p.2) = some (encodeTrace nils p.2) := by
            have ht := print_text Layout.indent_blank 0 (traceJSON nils p.2)
            rw [clean_trace] at ht
            exact parse_isJSON ⟨[], _, [], Blank.nil, Blank.nil, ht, by simp [traceText]⟩
          simp only [List.map_cons, List.zip_cons_cons, List.filter_cons_of_pos, List.mapM_cons, hp, this]
          rfl
  refine ⟨_, hsel all checked, fun text ht => ?_⟩
  have hmem : ∀ p, p ∈ ((all.zip checked).filter fun p => p.2).map Prod.fst ↔ (p, true) ∈ all.zip checked := by
    intro p
    simp only [List.mem_map, List.mem_filter, Prod.exists]
    constructor
    · rintro ⟨a, b, c, ⟨h1, h2⟩, rfl⟩
      subst h2
      exact h1
    · intro h
      exact ⟨p.1, p.2, true, ⟨h, rfl⟩, rfl⟩
  have hall : ∀ p, p ∈ ((all.zip checked).filter fun p => p.2).map Prod.fst → p ∈ all := by
    intro p hp
    exact (List.of_mem_zip ((hmem p).1 hp)).1
  have hd' : ((((all.zip checked).filter fun p => p.2).map Prod.fst).map Prod.fst).Nodup := by
    refine hd.sublist ?_
    refine List.Sublist.map _ ?_
    refine ((List.filter_sublist (l := all.zip checked) (p := fun p => p.2)).map Prod.fst).trans ?_
    clear hv hd hk hmem hall ht
    induction all generalizing checked with
    | nil => simp
    | cons x all ih =>
      cases checked with
      | nil => simp
      | cons b c => simpa using ih c
  have := upload_selection h h' (fun p hp => hv p (hall p hp)) hd' (fun p hp => hk p (hall p hp)) nils (text := text) (by
    unfold IsExports
    rw [List.map_map]
    exact ht)
  simpa only [hmem] using this

/-! ## Scripts -/

/-- **C94** (scripts).  Whatever was collected, the data of the timeline, as written into a script of the page, contains no zero byte
and none of `<`, `>` and `&`, so nothing in it ends the script or begins a comment; it is JSON; and the script reads exactly the items,
with U+FFFD for everything that is not UTF-8. -/
theorem script_data (items : List TimelineItem) : (∀ c ∈ scriptData items, c ≠ 0 ∧ c ≠ 38 ∧ c ≠ 60 ∧ c ≠ 62) ∧
    ∃ v, IsJSON (scriptData items) v ∧ parseJSON (scriptData items) = some v ∧ readItems v = some (items.map TimelineItem.clean) := by
  have : IsJSON (scriptData items) (JVal.clean (.arr (items.map itemJSON))) :=
    ⟨[], _, [], Blank.nil, Blank.nil, print_text Layout.compact_blank 0 _, by simp [scriptData]⟩
  refine ⟨print_script Layout.compact_blank _ _, _, this, parse_isJSON this, ?_⟩
  rw [JVal.clean, cleanList_eq, List.map_map]
  exact mapM_map_some _ readItem _ readItem_json items

/-! ## Examples -/

/-- A store in which a page, a span and a value try to smuggle in markup. -/
def markupSpans : List StoreOp :=
  [.collect ⟨1, 5, 0⟩ [⟨b!"Name", some b!"<b>x"⟩, ⟨b!"_schema:name", none⟩, ⟨b!"k\"", some b!"</td><script>&lt;"⟩]]

example : (MemStore.new.run markupSpans).map (fun ms => ms.view 1) =
    some (.found (.node ⟨⟨1, 5, 0⟩, [⟨b!"Name", some b!"<b>x"⟩, ⟨b!"_schema:name", none⟩, ⟨b!"k\"", some b!"</td><script>&lt;"⟩]⟩ [])) := by
  decide_cbv

set_option maxRecDepth 3000 in
example : htmlTokens (verboseViewHTML ⟨⟨1, 5, 0⟩, [⟨b!"k\"", some b!"</td><script>&lt;"⟩]⟩) =
    [.tag b!"ul id=\"verboseDataView\" class=\"traces\"", .tag b!"li class=\"trace\" id=\"span-0000000000000005\"",
      .tag b!"strong title=\"0000000000000001/0000000000000005\"", .text b!"0000000000000005", .tag b!"/strong",
      .tag b!"table class=\"table table-condensed table-striped\"", .tag b!"tr", .tag b!"th", .text b!"k\"", .tag b!"/th", .tag b!"td",
      .text b!"</td><script>&lt;", .tag b!"/td", .tag b!"/tr", .tag b!"/table", .tag b!"/li", .tag b!"/ul"] := by decide_cbv

/-- Without escaping, the same text would be read as tags. -/
example : htmlTokens b!"<td></td><script>&lt;</td>" = [.tag b!"td", .tag b!"/td", .tag b!"script", .text b!"<", .tag b!"/td"] := by decide_cbv

set_option maxRecDepth 3000 in
/-- The hypotheses of `list_upload` are met by both traces of `twoTraces` (see Properties/UploadMany.lean), with one box checked. -/
example : ((MemStore.new.run twoTraces).bind fun ms => match ms.view 1, ms.view 2 with
    | .found a, .found b => (selectedTraces ([a, b].map (traceText fun _ => (false, false))) [true, false]).map fun vs =>
        decide (vs.length = 1)
    | _, _ => none) = some true := by decide_cbv

/-! ## Tooltips and menus -/

/-- **C95**, the expectation: the name of a span is shown as text when the mouse is over its item, and at the top of its menu. -/
def NamesAreText : Prop :=
  ∀ (env : ViewEnv) (tr : Tree) (items : List TimelineItem), d3timeline env tr = some (.ok items) →
    ∀ i ∈ items, htmlTokens (tooltipHTML i) = textToken (shownBytes i.fullLabel) ∧
      ∀ t ∈ i.times, htmlTokens (menuHTML t) = textToken (shownBytes t.label)

/-- A span named like an image that runs a script when it cannot be loaded. -/
def imageSpan : Tree := .node (namedSpan ⟨1, 1, 0⟩ b!"<img src=x onerror=alert(1)>" 0 9) []

set_option maxRecDepth 3000 in
/-- The timeline of the trace has one item; with the mouse over it, the browser finds an image, and no text. -/
theorem image_read : (d3timeline sampleEnv imageSpan).map (fun r => r.toOption.map fun items => items.map fun i =>
    (htmlTokens (tooltipHTML i), i.times.map fun t => htmlTokens (menuHTML t))) =
    some (some [([.tag b!"img src=x onerror=alert(1)"], [[.tag b!"img src=x onerror=alert(1)", .text b!" (d)"]])]) := by rfl

/-- **C95** is false of the code. -/
theorem names_are_text_false : ¬ NamesAreText := by
  intro h
  have e := image_read
  generalize hd : d3timeline sampleEnv imageSpan = r at e
  match r with
  | some (.ok [i]) =>
    have := (h sampleEnv imageSpan [i] hd i (by simp)).1
    simp only [Option.map_some, Except.toOption, List.map_cons, List.map_nil, Option.some.injEq, List.cons.injEq, Prod.mk.injEq,
      and_true] at e
    rw [e.1, textToken] at this
    split at this <;> simp at this
  | none => simp at e
  | some (.error _) => simp [Except.toOption] at e
  | some (.ok []) => simp [Except.toOption] at e
  | some (.ok (_ :: _ :: _)) => simp [Except.toOption] at e

theorem decodeRefs_plain {s : Bytes} (h : 38 ∉ s) : decodeRefs s = s := by
  have : ∀ (s : Bytes), 38 ∉ s → decodeRefsAux s.length s = s := by
    intro s
    induction s with
    | nil => intro _; rfl
    | cons c s ih =>
      intro h
      simp only [List.mem_cons, not_or] at h
      have hc : ¬ c = 38 := fun e => h.1 e.symm
      simp only [List.length_cons, decodeRefsAux, hc, if_false, ih h.2]
  exact this s h

theorem plain_read {s : Bytes} (h : 60 ∉ s) (h' : 38 ∉ s) : htmlTokens s = textToken s := by
  have := scan_text s [] [] h
  rw [List.append_nil] at this
  rw [htmlTokens, this]
  show textToken (decodeRefs ([] ++ s)) = _
  rw [List.nil_append, decodeRefs_plain h']

/-- **C95**, proved part: if no name of a span contains `<` or `&`, then for every item of the timeline the browser shows exactly the
name of a span with the item's ID; and any label of a timespan without these characters is shown exactly. -/
theorem names_are_text_partial (env : ViewEnv) (tr : Tree) (items : List TimelineItem) (h : d3timeline env tr = some (.ok items))
    (hn : ∀ s ∈ tr.spans, 60 ∉ annotationsName s.annotations ∧ 38 ∉ annotationsName s.annotations) :
    ∀ i ∈ items, (∃ s ∈ tr.spans, s.id.span.toText = i.spanID ∧
        htmlTokens (tooltipHTML i) = [.text (annotationsName s.annotations)]) ∧
      ∀ t ∈ i.times, 60 ∉ t.label → 38 ∉ t.label → htmlTokens (menuHTML t) = textToken t.label := by
  intro i hi
  refine ⟨?_, fun t _ h1 h2 => plain_read h1 h2⟩
  obtain ⟨-, h2⟩ := timeline_ok env tr items h
  obtain ⟨x, hx, hne, hit, -⟩ := forall₂_mem_right h2 hi
  have hs : x.2 ∈ tr.spans := mem_shown env tr 0 x hx
  refine ⟨x.2, hs, ?_, ?_⟩
  · exact hit.spanID.symm
  · rw [tooltipHTML, hit.fullLabel, plain_read (hn _ hs).1 (hn _ hs).2, textToken, if_neg hne]

/-- A trace that meets the hypotheses. -/
example : (d3timeline sampleEnv sampleTrace).map (fun r => r.toOption.map fun items => items.map fun i => htmlTokens (tooltipHTML i)) =
    some (some [[.text b!"root"], [.text b!"a"], [.text b!"b"]]) := by rfl

example : ∀ s ∈ sampleTrace.spans, 60 ∉ annotationsName s.annotations ∧ 38 ∉ annotationsName s.annotations := by decide

end Appdash
