import Verif.Proofs.Views
import Verif.Proofs.Times
import Verif.Proofs.EventLibrary

/-!
# Properties of the profile, aggregate and timeline views

C49 profile; C50 aggregate; C51 timeline; C65, C66 and C67 the stronger expectations that do not hold.
-/

namespace Appdash

/-! ## Sample traces -/

/-- **C49**, **C50**, **C51** (names).  The name of a span is the value of its first annotation with the key `Name`. -/
theorem names_of_spans (as : List Annotation) :
    (∀ before a after, as = before ++ a :: after → a.key = b!"Name" → (∀ x ∈ before, x.key ≠ b!"Name") →
      annotationsName as = a.value.getD []) ∧
    ((∀ x ∈ as, x.key ≠ b!"Name") → annotationsName as = []) := by
  induction as with
  | nil => exact ⟨fun before a after h => by simp at h, fun _ => rfl⟩
  | cons x as ih =>
    constructor
    · intro before a after h hk hb
      cases before with
      | nil =>
        simp only [List.nil_append, List.cons.injEq] at h
        obtain ⟨rfl, rfl⟩ := h
        rw [annotationsName, if_pos hk]
        rfl
      | cons y before =>
        simp only [List.cons_append, List.cons.injEq] at h
        obtain ⟨rfl, h⟩ := h
        rw [annotationsName, if_neg (hb x (by simp))]
        exact ih.1 before a after h hk fun z hz => hb z (List.mem_cons_of_mem _ hz)
    · intro h
      rw [annotationsName, if_neg (h x (by simp))]
      exact ih.2 fun z hz => h z (List.mem_cons_of_mem _ hz)

/-- The registry of the library's events. -/
def libReg : Registry := (registerAll libraryEvents []).getD []

/-- A registry-based environment that measures times in whole milliseconds. -/
def sampleEnv : ViewEnv := ⟨libReg, fun s e => (e.instant - s.instant) / 1000000, fun _ => b!"d"⟩

/-- Annotations of a name and of a timespan on 1 January 2015 between two seconds. -/
def namedSpan (id : SpanID) (name : Bytes) (from_ to_ : Nat) : Span :=
  ⟨id, [⟨b!"Name", some name⟩, ⟨b!"_schema:name", none⟩,
    ⟨b!"Span.Start", some (formatTime ⟨2015, 1, 1, 0, 0, from_, 0, 0⟩)⟩,
    ⟨b!"Span.End", some (formatTime ⟨2015, 1, 1, 0, 0, to_, 0, 0⟩)⟩, ⟨b!"_schema:Timespan", none⟩]⟩

/-- Annotations of a name only. -/
def untimedSpan (id : SpanID) (name : Bytes) : Span := ⟨id, [⟨b!"Name", some name⟩, ⟨b!"_schema:name", none⟩]⟩

/-- A root with a child that has a child. -/
def sampleTrace : Tree :=
  .node (namedSpan ⟨1, 1, 0⟩ b!"root" 0 9) [.node (namedSpan ⟨1, 2, 1⟩ b!"a" 1 3) [.node (namedSpan ⟨1, 3, 2⟩ b!"b" 2 3) []],
    .node (untimedSpan ⟨1, 4, 1⟩ b!"c") []]

/-! ## C49 -/

/-- Property C49.  If the events of all spans can be read, the profile of a trace has an entry for every span, in depth-first
order, with the times that add up as they should. -/
theorem profile_exact (env : ViewEnv) (own : Span → Int) (t : Tree) (h : OwnTimes env own t.spans) :
    ∃ ps p, calcProfile env t = some (.ok (ps, p)) ∧ ps.head? = some p ∧ List.Forall₂ (EntryOf own) t.subtrees ps := by
  obtain ⟨ps, p, h1, _, h3, h4⟩ := calcProfile_spec env own t h
  exact ⟨ps, p, h1, h3, h4⟩

/-- Property C49.  Conversely, a profile is only returned if the events of all spans can be read, and then own times exist and
are unique, so the entries are determined. -/
theorem profile_readable (env : ViewEnv) (t : Tree) (r : List Profile × Profile) (h : calcProfile env t = some (.ok r)) :
    ∃ own, OwnTimes env own t.spans ∧ ∀ own', OwnTimes env own' t.spans → ∀ s ∈ t.spans, own' s = own s := by
  refine ⟨codeOwn env, calcProfile_ok env t r h, ?_⟩
  intro own' h' s hs
  exact (h'.eq s hs).1

/-- Property C49.  The entries are those of the spans in depth-first order. -/
theorem profile_order (t : Tree) : t.subtrees.map Tree.span = t.spans := subtrees_map_span t

/-- Property C49.  The cumulative time is the own time plus the children's cumulative times, and no time is negative. -/
theorem profile_recursive (env : ViewEnv) (own : Span → Int) (s : Span) (cs : List Tree) (p : Profile) (qs : List Profile)
    (h : OwnTimes env own (Tree.node s cs).spans) (hp : EntryOf own (.node s cs) p)
    (hq : List.Forall₂ (EntryOf own) cs qs) :
    p.timeCum = p.time + (qs.map Profile.timeCum).sum ∧ p.timeChildren = p.time + (qs.map Profile.time).sum ∧
      0 ≤ p.time ∧ p.time ≤ p.timeChildren ∧ p.timeChildren ≤ p.timeCum := by
  have h1 : ∀ (cs : List Tree) (qs : List Profile), List.Forall₂ (EntryOf own) cs qs →
      ((Tree.spansList cs).map own).sum = (qs.map Profile.timeCum).sum ∧
        (cs.map fun c => own c.span).sum = (qs.map Profile.time).sum := by
    intro cs qs hq
    induction hq with
    | nil => exact ⟨rfl, rfl⟩
    | cons hc _ ih =>
      constructor
      · simp only [Tree.spansList, List.map_append, List.sum_append, List.map_cons, List.sum_cons, hc.timeCum, ih.1]
      · simp only [List.map_cons, List.sum_cons, hc.time, ih.2]
  have hn : ∀ x ∈ (Tree.node s cs).spans, 0 ≤ own x := fun x hx => by obtain ⟨ts, _, h2⟩ := h x hx; exact h2.nonneg
  have hcum : p.timeCum = p.time + (qs.map Profile.timeCum).sum := by
    rw [hp.timeCum, hp.time, ← (h1 cs qs hq).1]
    simp [Tree.spans, Tree.span]
  have hch : p.timeChildren = p.time + (qs.map Profile.time).sum := by
    rw [hp.timeChildren, hp.time, ← (h1 cs qs hq).2]; rfl
  have h0 : 0 ≤ p.time := by rw [hp.time]; exact hn _ (by simp [Tree.spans, Tree.span])
  have hle : ∀ (cs : List Tree) (qs : List Profile), List.Forall₂ (EntryOf own) cs qs →
      (∀ x ∈ Tree.spansList cs, 0 ≤ own x) →
      0 ≤ (qs.map Profile.time).sum ∧ (qs.map Profile.time).sum ≤ (qs.map Profile.timeCum).sum := by
    intro cs qs hq hn
    induction hq with
    | nil => exact ⟨Int.le_refl _, Int.le_refl _⟩
    | @cons c q cs qs hc _ ih =>
      simp only [Tree.spansList] at hn
      have ih := ih fun x hx => hn x (List.mem_append_right _ hx)
      have hc0 : ∀ x ∈ c.spans, 0 ≤ own x := fun x hx => hn x (List.mem_append_left _ hx)
      have : 0 ≤ q.time ∧ q.time ≤ q.timeCum := by
        rw [hc.time, hc.timeCum]
        cases c with
        | node s ds =>
          simp only [Tree.spans] at hc0
          have h1 := hc0 s (List.mem_cons_self ..)
          have h2 := sum_nonneg' ((Tree.spansList ds).map own) (by
            intro v hv
            obtain ⟨x, hx, rfl⟩ := List.mem_map.1 hv
            exact hc0 x (List.mem_cons_of_mem _ hx))
          simp only [Tree.spans, Tree.span, List.map_cons, List.sum_cons]
          omega
      simp only [List.map_cons, List.sum_cons]
      omega
  have hl := hle cs qs hq fun x hx => hn x (by simp only [Tree.spans]; exact List.mem_cons_of_mem _ hx)
  refine ⟨hcum, hch, h0, by omega, by omega⟩

/-- Property C49, with recorded events: if every span carries recorded events, the profile exists. -/
theorem profile_recorded (env : ViewEnv) (t : Tree)
    (h : ∀ s ∈ t.spans, ∃ ps : Pieces, ps.Recorded env.reg ∧ s.annotations = ps.all) :
    ∃ own, OwnTimes env own t.spans := by
  refine ⟨codeOwn env, ?_⟩
  intro s hs
  obtain ⟨ps, h1, h2⟩ := h s hs
  have h3 := spanTimes_recorded env.reg ps h1
  rw [← h2] at h3
  exact ⟨_, h3, by simp only [codeOwn, h3]; exact ownTime_isOwn _ _⟩

example : (calcProfile sampleEnv sampleTrace).map (fun r => r.toOption.map fun r => r.1.map fun p =>
    (p.name, p.time, p.timeChildren, p.timeCum)) =
    some (some [(b!"root", 9000, 11000, 12000), (b!"a", 2000, 3000, 3000), (b!"b", 1000, 1000, 1000), (b!"c", 0, 0, 0)]) := by
  decide_cbv

/-! ## C50 -/

/-- Property C50.  The aggregate view has one item for each label under which a trace or span counts, and its value is the sum
of the times, plus one if the first of these times is zero. -/
theorem aggregate_exact (env : ViewEnv) (mode : AggMode) (own : Span → Int) (traces : List Tree)
    (h : ∀ t ∈ traces, OwnTimes env own t.spans) :
    ∃ m, aggregate env mode traces = some (.ok m) ∧ m.keys.Nodup ∧ ∀ label,
      AMap.get m label =
        match timesUnder label (traces.flatMap (contributions own mode)) with
        | [] => none
        | v :: vs => some ((v :: vs).sum + if v = 0 then 1 else 0) := by
  refine ⟨_, aggTraces_feed env mode own traces [] h, aggFeed_nodup _ _ List.nodup_nil, ?_⟩
  intro label
  rw [aggFeed_get]
  have hn : ∀ v ∈ timesUnder label (traces.flatMap (contributions own mode)), 0 ≤ v := by
    intro v hv
    obtain ⟨c, hc, rfl⟩ := List.mem_map.1 hv
    obtain ⟨t, ht, hc⟩ := List.mem_flatMap.1 (List.mem_filter.1 hc).1
    exact contributions_nonneg (h t ht) c hc
  cases hT : timesUnder label (traces.flatMap (contributions own mode)) with
  | nil => rfl
  | cons v vs =>
    rw [hT] at hn
    exact aggTotal_none v vs hn

/-- Property C50.  So every item's value is at least one, and at least the sum of its times but at most one more. -/
theorem aggregate_bounds (env : ViewEnv) (mode : AggMode) (own : Span → Int) (traces : List Tree)
    (h : ∀ t ∈ traces, OwnTimes env own t.spans) (m : AMap Bytes Int) (hm : aggregate env mode traces = some (.ok m))
    (label : Bytes) (value : Int) (hv : AMap.get m label = some value) :
    1 ≤ value ∧ (timesUnder label (traces.flatMap (contributions own mode))).sum ≤ value ∧
      value ≤ (timesUnder label (traces.flatMap (contributions own mode))).sum + 1 := by
  obtain ⟨m', h1, _, h2⟩ := aggregate_exact env mode own traces h
  rw [h1] at hm
  cases hm
  have hn : ∀ v ∈ timesUnder label (traces.flatMap (contributions own mode)), 0 ≤ v := by
    intro v hv
    obtain ⟨c, hc, rfl⟩ := List.mem_map.1 hv
    obtain ⟨t, ht, hc⟩ := List.mem_flatMap.1 (List.mem_filter.1 hc).1
    exact contributions_nonneg (h t ht) c hc
  have h3 := h2 label
  rw [hv] at h3
  generalize timesUnder label (traces.flatMap (contributions own mode)) = vs at h3 hn
  cases vs with
  | nil => simp at h3
  | cons v vs =>
    simp only [Option.some.injEq] at h3
    have h0 := hn v (List.mem_cons_self ..)
    have h1 := sum_nonneg' vs fun w hw => hn w (List.mem_cons_of_mem _ hw)
    simp only [List.sum_cons] at h3 ⊢
    split at h3 <;> omega

example : ((aggregate sampleEnv .spanOnly [sampleTrace, sampleTrace]).map fun r => r.toOption.map fun m =>
    (AMap.get m b!"a", AMap.get m b!"b", AMap.get m b!"c")) = some (some (some 4000, some 2000, some 1)) := by
  decide_cbv

/-! ## C65: the order of the traces -/

/-- Property C65, in full: the order of the traces does not matter. -/
def AggregateOrderFree : Prop :=
  ∀ (env : ViewEnv) (mode : AggMode) (own : Span → Int) (ts ts' : List Tree), ts.Perm ts' →
    (∀ t ∈ ts, OwnTimes env own t.spans) → ∀ m m', aggregate env mode ts = some (.ok m) →
      aggregate env mode ts' = some (.ok m') → ∀ label, AMap.get m label = AMap.get m' label

/-- A trace without time and one of five seconds, with the same name. -/
def zeroTrace : Tree := .node (untimedSpan ⟨1, 1, 0⟩ b!"x") []
def fiveTrace : Tree := .node (namedSpan ⟨2, 1, 0⟩ b!"x" 0 5) []

/-- In one order the item counts 5001 milliseconds, in the other 5000. -/
theorem aggregate_order_matters :
    aggregate sampleEnv .traceOnly [zeroTrace, fiveTrace] = some (.ok [(b!"x", 5001)]) ∧
      aggregate sampleEnv .traceOnly [fiveTrace, zeroTrace] = some (.ok [(b!"x", 5000)]) := by
  constructor <;> rfl

/-- Property C65 is false of the code. -/
theorem aggregate_order_free_false : ¬ AggregateOrderFree := by
  intro h
  have hok : ∀ t ∈ [zeroTrace, fiveTrace], OwnTimes sampleEnv (codeOwn sampleEnv) t.spans := by
    intro t ht
    simp only [List.mem_cons, List.not_mem_nil, or_false] at ht
    rcases ht with rfl | rfl
    · exact calcProfile_ok sampleEnv zeroTrace ([⟨b!"x", spanURL ⟨1, 1, 0⟩, 0, 0, 0⟩], ⟨b!"x", spanURL ⟨1, 1, 0⟩, 0, 0, 0⟩) (by rfl)
    · exact calcProfile_ok sampleEnv fiveTrace ([⟨b!"x", spanURL ⟨2, 1, 0⟩, 5000, 5000, 5000⟩],
        ⟨b!"x", spanURL ⟨2, 1, 0⟩, 5000, 5000, 5000⟩) (by rfl)
  have := h sampleEnv .traceOnly (codeOwn sampleEnv) [zeroTrace, fiveTrace] [fiveTrace, zeroTrace] (List.Perm.swap ..) hok _ _
    aggregate_order_matters.1 aggregate_order_matters.2 b!"x"
  revert this
  decide

theorem timesUnder_perm {label : Bytes} {cs ds : List (Bytes × Int)} (h : cs.Perm ds) :
    (timesUnder label cs).Perm (timesUnder label ds) := (h.filter _).map _

/-- Property C65, proved part: the same labels occur in either order, the values differ by at most one, and if no trace or span
under a label has time zero, they are equal. -/
theorem aggregate_order_free_partial (env : ViewEnv) (mode : AggMode) (own : Span → Int) (ts ts' : List Tree)
    (hp : ts.Perm ts') (h : ∀ t ∈ ts, OwnTimes env own t.spans) (m m' : AMap Bytes Int)
    (hm : aggregate env mode ts = some (.ok m)) (hm' : aggregate env mode ts' = some (.ok m')) (label : Bytes) :
    (AMap.get m label = none ↔ AMap.get m' label = none) ∧
      (∀ v v', AMap.get m label = some v → AMap.get m' label = some v' → v ≤ v' + 1 ∧ v' ≤ v + 1) ∧
      ((∀ v ∈ timesUnder label (ts.flatMap (contributions own mode)), v ≠ 0) → AMap.get m label = AMap.get m' label) := by
  have h' : ∀ t ∈ ts', OwnTimes env own t.spans := fun t ht => h t (hp.mem_iff.2 ht)
  obtain ⟨a, h1, _, h2⟩ := aggregate_exact env mode own ts h
  obtain ⟨b, h3, _, h4⟩ := aggregate_exact env mode own ts' h'
  rw [h1] at hm; cases hm
  rw [h3] at hm'; cases hm'
  have hP := timesUnder_perm (label := label) (hp.flatMap_right (contributions own mode))
  have h2 := h2 label
  have h4 := h4 label
  rw [h2, h4]
  generalize timesUnder label (ts.flatMap (contributions own mode)) = x at hP
  generalize timesUnder label (ts'.flatMap (contributions own mode)) = y at hP
  have hsum : x.sum = y.sum := perm_sum hP
  cases x with
  | nil => rw [List.nil_perm.1 hP]; simp
  | cons v vs =>
    cases y with
    | nil => simp at hP
    | cons w ws =>
      refine ⟨by simp, ?_, ?_⟩
      · intro p q hp hq
        simp only [Option.some.injEq] at hp hq
        rw [hsum] at hp
        split at hp <;> split at hq <;> omega
      · intro hz
        have hv := hz v (List.mem_cons_self ..)
        have hw := hz w (hP.mem_iff.2 (List.mem_cons_self ..))
        simp only [hv, hw, if_false, hsum]

/-! ## C51 -/

/-- Property C51.  If all spans are named and their events can be read, the timeline has an item for every span that is timed and
whose ancestors are all timed, in depth-first order, with the span's data; a root span's item has one timespan for each of its
events, another span's item has one timespan from its earliest start to its latest end. -/
theorem timeline_exact (env : ViewEnv) (t : Tree) (h : Readable env t.spans) :
    ∃ items, d3timeline env t = some (.ok items) ∧
      List.Forall₂ (fun x i => ItemOf x.1 x.2 i ∧
        ∃ ts, spanTimes env.reg x.2.annotations = some (.ok ts) ∧ validTimes ts ≠ [] ∧
          TimesOf (x.2.id.parent = 0) ts i.times) (shown env 0 t) items := by
  obtain ⟨items, h1, h2⟩ := timeline_spec env t 0 h
  refine ⟨items, h1, h2.imp ?_⟩
  rintro ⟨d, s⟩ i ⟨ts, h3, h4, rfl⟩
  refine ⟨codeItem_itemOf env d s ts, ts, h3, h4, ?_⟩
  have := times_spec env.durText (annotationsName s.annotations) (s.id.parent == 0) ts h4
  simpa [codeItem] using this

/-- Property C51.  Whatever the spans are, a timeline that is returned without error has exactly these items, and the root and all
spans shown have names. -/
theorem timeline_ok (env : ViewEnv) (t : Tree) (items : List TimelineItem) (h : d3timeline env t = some (.ok items)) :
    annotationsName t.span.annotations ≠ [] ∧
      List.Forall₂ (fun x i => annotationsName x.2.annotations ≠ [] ∧ ItemOf x.1 x.2 i ∧
        ∃ ts, spanTimes env.reg x.2.annotations = some (.ok ts) ∧ validTimes ts ≠ [] ∧
          TimesOf (x.2.id.parent = 0) ts i.times) (shown env 0 t) items := by
  obtain ⟨h1, h2, h3⟩ := timeline_ok_spec env t 0 items h
  refine ⟨h2, ?_⟩
  have h4 : List.Forall₂ (fun x i => annotationsName x.2.annotations ≠ [] ∧ Made env x i) (shown env 0 t) items := by
    generalize shown env 0 t = l at h1 h3
    clear h
    induction h1 with
    | nil => exact .nil
    | cons h _ ih => exact .cons ⟨h3 _ (List.mem_cons_self ..), h⟩ (ih fun x hx => h3 x (List.mem_cons_of_mem _ hx))
  refine h4.imp ?_
  rintro ⟨d, s⟩ i ⟨hn, ts, h3, h4, rfl⟩
  refine ⟨hn, codeItem_itemOf env d s ts, ts, h3, h4, ?_⟩
  have := times_spec env.durText (annotationsName s.annotations) (s.id.parent == 0) ts h4
  simpa [codeItem] using this

/-- Property C51.  If moreover all spans are timed, the items are those of all spans of the trace. -/
theorem timeline_complete (env : ViewEnv) (t : Tree) (h : Readable env t.spans) (ht : ∀ s ∈ t.spans, timed env s = true) :
    ∃ items, d3timeline env t = some (.ok items) ∧ items.map TimelineItem.spanID = t.spans.map fun s => s.id.span.toText := by
  obtain ⟨items, h1, h2⟩ := timeline_exact env t h
  refine ⟨items, h1, ?_⟩
  rw [← shown_all env t 0 ht, List.map_map]
  exact (forall₂_map_eq h2 fun a b hab => hab.1.spanID.symm).symm

/-- Property C51.  The times of the timeline are whole milliseconds since 1970, for all times until 2262. -/
theorem timeline_milliseconds (t : GoTime) (h0 : 0 ≤ t.instant) (h1 : t.instant < 2 ^ 63) :
    unixMilli t * 1000000 ≤ t.instant ∧ t.instant < (unixMilli t + 1) * 1000000 := by
  have e : t.unixNano = t.instant := by
    unfold GoTime.unixNano
    rw [Int.bmod_eq_of_le] <;> omega
  unfold unixMilli
  rw [e, Int.tdiv_eq_ediv_of_nonneg h0]
  constructor <;> omega

example : unixMilli ⟨2016, 7, 1, 10, 20, 30, 7000000, 0⟩ = 1467368430007 ∧ 0 ≤ GoTime.instant ⟨2016, 7, 1, 10, 20, 30, 7000000, 0⟩ := by decide

/-- Property C51.  The timespans of an item carry the duration of the item's first timespan, which is its own for all spans but
roots with several timespan events. -/
theorem timeline_durations (env : ViewEnv) (t : Tree) (h : Readable env t.spans)
    (hfit : ∀ s ∈ t.spans, ∀ ts, spanTimes env.reg s.annotations = some (.ok ts) → TimesFit (validTimes ts)) :
    ∃ items, d3timeline env t = some (.ok items) ∧
      ∀ i ∈ items, ∃ first rest, i.times = first :: rest ∧ ∀ x ∈ i.times, x.duration = first.length := by
  obtain ⟨items, h1, h2⟩ := timeline_spec env t 0 h
  refine ⟨items, h1, ?_⟩
  intro i hi
  obtain ⟨⟨d, s⟩, hx, ts, h3, h4, rfl⟩ := forall₂_mem_right h2 hi
  obtain ⟨first, rest, h5, h6⟩ := durations_spec env.durText (annotationsName s.annotations) (s.id.parent == 0) ts h4
    (hfit s (shown_mem env t 0 _ hx) ts h3)
  exact ⟨first, rest, h5, by simp only [codeItem, h5]; exact h6⟩

/-- The timeline of the sample trace: the fourth span has no timespan event. -/
example : ((d3timeline sampleEnv sampleTrace).map fun r => r.toOption.map fun is => is.map fun i =>
    (i.label, i.times.map TimelineSpan.length)) =
    some (some [(b!"root", [9000000000]), (b!"a", [2000000000]), (b!"b", [1000000000])]) := by
  decide_cbv

/-! ## C66: spans below an untimed span -/

/-- Property C66, in full: the timeline has an item for every span with a timespan event it can show. -/
def EveryTimedSpanShown : Prop :=
  ∀ (env : ViewEnv) (t : Tree), Readable env t.spans → ∀ items, d3timeline env t = some (.ok items) →
    ∀ s ∈ t.spans, timed env s = true → ∃ i ∈ items, i.spanID = s.id.span.toText

/-- A root without timespan event and a child of five seconds. -/
def untimedRoot : Tree := .node (untimedSpan ⟨1, 1, 0⟩ b!"root") [.node (namedSpan ⟨1, 2, 1⟩ b!"a" 0 5) []]

/-- Its timeline is empty. -/
theorem untimed_root_hides : d3timeline sampleEnv untimedRoot = some (.ok []) := by rfl

theorem untimedRoot_readable : Readable sampleEnv untimedRoot.spans := by
  intro s hs
  simp only [untimedRoot, Tree.spans, Tree.spansList, List.append_nil, List.mem_cons, List.not_mem_nil, or_false] at hs
  rcases hs with rfl | rfl
  · exact ⟨by decide, [], by rfl⟩
  · exact ⟨by decide, [(b!"Timespan", ⟨2015, 1, 1, 0, 0, 0, 0, 0⟩, ⟨2015, 1, 1, 0, 0, 5, 0, 0⟩)], by rfl⟩

/-- Property C66 is false of the code. -/
theorem every_timed_span_shown_false : ¬ EveryTimedSpanShown := by
  intro h
  obtain ⟨i, hi, _⟩ := h sampleEnv untimedRoot untimedRoot_readable [] untimed_root_hides (namedSpan ⟨1, 2, 1⟩ b!"a" 0 5)
    (by simp [untimedRoot, Tree.spans, Tree.spansList]) (by rfl)
  simp at hi

/-- Property C66, proved part: an item for every span that is timed and whose ancestors are timed, and only for these. -/
theorem every_timed_span_shown_partial (env : ViewEnv) (t : Tree) (h : Readable env t.spans) :
    ∃ items, d3timeline env t = some (.ok items) ∧
      (∀ s, TimedPath env t s → ∃ i ∈ items, ∃ d, ItemOf d s i) ∧ ∀ i ∈ items, ∃ s d, TimedPath env t s ∧ ItemOf d s i := by
  obtain ⟨items, h1, h2⟩ := timeline_exact env t h
  refine ⟨items, h1, ?_, ?_⟩
  · intro s hs
    obtain ⟨d, hd⟩ := (shown_iff env t 0 s).2 hs
    have h3 := List.Forall₂.flip h2
    obtain ⟨i, hi, h4⟩ := forall₂_mem_right h3 hd
    exact ⟨i, hi, d, h4.1⟩
  · intro i hi
    obtain ⟨⟨d, s⟩, hx, h4, _⟩ := forall₂_mem_right h2 hi
    exact ⟨s, d, (shown_iff env t 0 s).1 ⟨d, hx⟩, h4⟩

/-! ## C67: the durations of a root span's timespans -/

/-- Property C67, in full: every timespan shown carries its own duration. -/
def OwnDurations : Prop :=
  ∀ (env : ViewEnv) (t : Tree), Readable env t.spans →
    (∀ s ∈ t.spans, ∀ ts, spanTimes env.reg s.annotations = some (.ok ts) → TimesFit (validTimes ts)) →
    ∀ items, d3timeline env t = some (.ok items) → ∀ i ∈ items, ∀ x ∈ i.times, x.duration = x.length

/-- A root with an SQL event of one second and a timespan of nine. -/
def twoTimesTrace : Tree :=
  .node ⟨⟨1, 1, 0⟩, [⟨b!"Name", some b!"root"⟩, ⟨b!"_schema:name", none⟩,
    ⟨b!"ClientSend", some b!"2015-01-01T00:00:01Z"⟩, ⟨b!"ClientRecv", some b!"2015-01-01T00:00:02Z"⟩, ⟨b!"_schema:SQL", none⟩,
    ⟨b!"Span.Start", some b!"2015-01-01T00:00:00Z"⟩, ⟨b!"Span.End", some b!"2015-01-01T00:00:09Z"⟩, ⟨b!"_schema:Timespan", none⟩]⟩ []

/-- The times of that span. -/
theorem twoTimes_times : spanTimes sampleEnv.reg twoTimesTrace.span.annotations =
    some (.ok [(b!"SQL", ⟨2015, 1, 1, 0, 0, 1, 0, 0⟩, ⟨2015, 1, 1, 0, 0, 2, 0, 0⟩),
      (b!"Timespan", ⟨2015, 1, 1, 0, 0, 0, 0, 0⟩, ⟨2015, 1, 1, 0, 0, 9, 0, 0⟩)]) := by rfl

/-- Both timespans are shown with a duration of one second. -/
theorem two_times_one_duration :
    ((d3timeline sampleEnv twoTimesTrace).map fun r => r.toOption.map fun is => is.map fun i =>
      i.times.map fun t => (t.fin - t.start, t.duration)) = some (some [[(1000, 1000000000), (9000, 1000000000)]]) := by
  decide_cbv

/-- Property C67 is false of the code. -/
theorem own_durations_false : ¬ OwnDurations := by
  intro h
  have hr : Readable sampleEnv twoTimesTrace.spans := by
    intro s hs
    simp only [twoTimesTrace, Tree.spans, Tree.spansList, List.mem_cons, List.not_mem_nil, or_false] at hs
    subst hs
    exact ⟨by decide, _, twoTimes_times⟩
  obtain ⟨items, h1, h2⟩ := timeline_exact sampleEnv twoTimesTrace hr
  have hall := h sampleEnv twoTimesTrace hr (by
    intro s hs ts hts
    simp only [twoTimesTrace, Tree.spans, Tree.spansList, List.mem_cons, List.not_mem_nil, or_false] at hs
    subst hs
    have := hts.symm.trans twoTimes_times
    simp only [Option.some.injEq, Except.ok.injEq] at this
    subst this
    unfold TimesFit
    decide) items h1
  have hc := two_times_one_duration
  rw [h1] at hc
  simp only [Option.map_some, Except.toOption, Option.some.injEq] at hc
  cases items with
  | nil => simp at hc
  | cons i is =>
    simp only [List.map_cons, List.cons.injEq] at hc
    have hi := hc.1
    cases ht : i.times with
    | nil => rw [ht] at hi; simp at hi
    | cons a as =>
      cases as with
      | nil => rw [ht] at hi; simp at hi
      | cons b bs =>
        rw [ht] at hi
        simp only [List.map_cons, List.cons.injEq, Prod.mk.injEq] at hi
        have := hall i (List.mem_cons_self ..) b (by rw [ht]; simp)
        unfold TimelineSpan.length at this
        omega

/-- Property C67, proved part: spans that have a parent, and roots with a single timespan event. -/
theorem own_durations_partial (env : ViewEnv) (t : Tree) (h : Readable env t.spans)
    (hfit : ∀ s ∈ t.spans, ∀ ts, spanTimes env.reg s.annotations = some (.ok ts) → TimesFit (validTimes ts)) :
    ∃ items, d3timeline env t = some (.ok items) ∧
      ∀ i ∈ items, (i.parentSpanID ≠ [] ∨ i.times.length = 1) → ∀ x ∈ i.times, x.duration = x.length := by
  obtain ⟨items, h1, h2⟩ := timeline_exact env t h
  obtain ⟨items', h1', h3⟩ := timeline_durations env t h hfit
  rw [h1] at h1'
  cases h1'
  refine ⟨items, h1, ?_⟩
  intro i hi hor x hx
  obtain ⟨first, rest, h4, h5⟩ := h3 i hi
  have hl : i.times.length = 1 := by
    rcases hor with hp | hl
    · obtain ⟨⟨d, s⟩, _, h6, ts, _, _, h7⟩ := forall₂_mem_right h2 hi
      have hne : ¬ s.id.parent = 0 := by
        intro h0
        rw [h6.parentSpanID, if_pos h0] at hp
        exact hp rfl
      obtain ⟨t, ht, _⟩ := h7.2 hne
      rw [ht]; rfl
    · exact hl
  rw [h5 x hx]
  rw [h4] at hl hx
  simp only [List.length_cons, Nat.add_eq_right, List.length_eq_zero_iff] at hl
  subst hl
  simp only [List.mem_singleton] at hx
  rw [hx]

end Appdash
