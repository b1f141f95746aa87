import Verif.Spec.Services
import Verif.Properties.EndToEnd
import Verif.Properties.Http

/-!
# Lemmas about distributed programs
-/

namespace Appdash
open Spec

theorem spansList_append (a b : List Tree) : Tree.spansList (a ++ b) = Tree.spansList a ++ Tree.spansList b := by
  induction a with
  | nil => rfl
  | cons t a ih => simp [Tree.spansList, ih]

theorem spansList_leaves {α : Type} (f : α → SpanID) (l : List α) :
    Tree.spansList (l.map fun c => .node ⟨f c, []⟩ []) = l.map fun c => ⟨f c, []⟩ := by
  induction l with
  | nil => rfl
  | cons t a ih => simp [Tree.spansList, Tree.spans, ih]

theorem edgesList_append (a b : List Tree) : Tree.edgesList (a ++ b) = Tree.edgesList a ++ Tree.edgesList b := by
  induction a with
  | nil => rfl
  | cons t a ih => simp [Tree.edgesList, ih]

theorem edgesList_leaves {α : Type} (f : α → SpanID) (l : List α) :
    Tree.edgesList (l.map fun c => .node ⟨f c, []⟩ []) = [] := by
  induction l with
  | nil => rfl
  | cons t a ih => simp [Tree.edgesList, Tree.edges, ih]

/-- What a handled request sends, and that it can be read. -/
theorem served_call {reg : Registry} (hreg : registerAll libraryEvents [] = some reg) {s : ServedReq} (h : s.Ok) :
    ∃ as evs, s.out.recorder.elim [] Recorder.calls = [(s.id, as)] ∧ unmarshalEvents reg as = some (evs, none) ∧ ShowsRequest s evs := by
  obtain ⟨rec, as, evs, reqInfo, respHeaders, h1, h2, h3, h4, h5, h6⟩ :=
    serves_readable s.env s.n s.request s.header s.out h.serves s.id h.span s.run h.handler reg hreg h.accepted h.times h.lengths h.written
      h.codes
  exact ⟨as, evs, by rw [h1]; exact h2, h3, reqInfo, respHeaders, h4, h5, h6⟩

theorem client_call {reg : Registry} (hreg : registerAll libraryEvents [] = some reg) {c : ClientCall} {p : SpanID} (h : c.Ok p) :
    ∃ as evs, c.out.recorder.calls = [(c.out.recorder.span, as)] ∧ unmarshalEvents reg as = some (evs, none) ∧ ShowsCall c evs := by
  obtain ⟨as, evs, rh, ri, h1, h2, h3, h4, h5, h6⟩ :=
    round_trip_readable c.env c.n c.heap c.original c.out h.trips reg hreg h.accepted h.times h.length h.response
  exact ⟨as, evs, h1, h2, rh, ri, h3, h4, h5, h6⟩

theorem local_call {reg : Registry} (hreg : registerAll libraryEvents [] = some reg) {l : LocalSpan} (h : l.recording.Proper l.id) :
    ∃ as evs, l.recording.calls l.id = [(l.id, as)] ∧ unmarshalEvents reg as = some (evs, none) ∧ AreEvents l.recording.events evs := by
  obtain ⟨evs, h1, h2⟩ := proper_events hreg h
  exact ⟨_, evs, proper_calls h, h1, h2⟩

/-- The span of a request that was caused by a call. -/
theorem caused_span {c : ClientCall} {p : SpanID} (hc : c.Ok p) {s : ServedReq} (hs : s.Ok) (hd : Delivered c.out.sentHeader s.header) :
    ∃ g, s.id = newSpanID p g := by
  obtain ⟨i, h1, h2, h3, -⟩ := call_connects c.env c.n c.heap c.original c.out hc.trips hc.spelling hc.names s.header hd s.env s.n s.request s.out
    hs.serves
  have := (serves_span s.env s.n s.request s.header s.out hs.serves s.id hs.span).1
  rw [this] at h1
  injection h1 with h1
  have he : s.id = i := by injection h1 with _ h1; injection h1
  rw [he]
  refine ⟨i.span, ?_⟩
  rw [hc.span] at h2
  cases i
  simp only [newSpanID, SpanID.mk.injEq]
  exact ⟨h2.trace, trivial, h2.parent⟩

theorem flatMap_singletons {α : Type} {l : List α} {f : α → List RecCall} {g : α → SpanID}
    (h : ∀ a ∈ l, ∃ as, f a = [(g a, as)]) : (l.flatMap f).map Prod.fst = l.map g := by
  induction l with
  | nil => rfl
  | cons a l ih =>
    obtain ⟨as, ha⟩ := h a List.mem_cons_self
    simp only [List.flatMap_cons, ha, List.map_append, List.map_cons, List.map_nil, List.cons_append, List.nil_append]
    rw [ih fun b hb => h b (List.mem_cons_of_mem _ hb)]

mutual
/-- The calls are for the spans of the tree, in the same order. -/
theorem deliveries_ids {reg : Registry} (hreg : registerAll libraryEvents [] = some reg) : ∀ h : Handled, h.Ok →
    h.deliveries.map Prod.fst = h.tree.spans.map Span.id
  | .mk s calls locals children, hok => by
    cases hok with
    | mk _ _ _ _ h1 h2 h3 h4 h5 =>
      obtain ⟨as, _, e1, -⟩ := served_call hreg h1
      have e2 := flatMap_singletons (l := calls) (f := fun c => c.out.recorder.calls) (g := fun c => c.out.recorder.span) fun c hc => by
        obtain ⟨as, _, e, -⟩ := client_call hreg (h2 c hc); exact ⟨as, e⟩
      have e3 := flatMap_singletons (l := locals) (f := fun l => l.recording.calls l.id) (g := fun l => l.id) fun l hl => by
        obtain ⟨as, _, e, -⟩ := local_call hreg (h3 l hl).1; exact ⟨as, e⟩
      have e4 := deliveriesOf_ids hreg children h4
      simp only [Handled.deliveries, Handled.tree, Tree.spans, spansList_append, spansList_leaves, List.map_append, List.map_cons, List.map_nil,
        List.map_map, e1, e2, e3, e4]
      simp [Function.comp_def]
theorem deliveriesOf_ids {reg : Registry} (hreg : registerAll libraryEvents [] = some reg) : ∀ hs : List Handled, (∀ h ∈ hs, h.Ok) →
    (Handled.deliveriesOf hs).map Prod.fst = (Tree.spansList (Handled.trees hs)).map Span.id
  | [], _ => rfl
  | h :: hs, hok => by
    simp only [Handled.deliveriesOf, Handled.trees, Tree.spansList, List.map_append]
    rw [deliveries_ids hreg h (hok h List.mem_cons_self), deliveriesOf_ids hreg hs fun x hx => hok x (List.mem_cons_of_mem _ hx)]
end

mutual
/-- Every call can be read and shows what its span stands for. -/
theorem deliveries_show {reg : Registry} (hreg : registerAll libraryEvents [] = some reg) : ∀ h : Handled, h.Ok → ∀ d ∈ h.deliveries,
    ∃ evs, unmarshalEvents reg d.2 = some (evs, none) ∧ h.Shows d.1 evs
  | .mk s calls locals children, hok, d, hd => by
    cases hok with
    | mk _ _ _ _ h1 h2 h3 h4 h5 =>
      simp only [Handled.deliveries, List.mem_append] at hd
      rcases hd with hd | ((hd | hd) | hd)
      · obtain ⟨as, evs, e1, e2, e3⟩ := served_call hreg h1
        rw [e1, List.mem_singleton] at hd
        subst hd
        exact ⟨evs, e2, .inl ⟨s, by simp [Handled.requests], rfl, e3⟩⟩
      · obtain ⟨c, hc, hd⟩ := List.mem_flatMap.1 hd
        obtain ⟨as, evs, e1, e2, e3⟩ := client_call hreg (h2 c hc)
        rw [e1, List.mem_singleton] at hd
        subst hd
        exact ⟨evs, e2, .inr (.inl ⟨c, by simp [Handled.clientCalls, hc], rfl, e3⟩)⟩
      · obtain ⟨l, hl, hd⟩ := List.mem_flatMap.1 hd
        obtain ⟨as, evs, e1, e2, e3⟩ := local_call hreg (h3 l hl).1
        rw [e1, List.mem_singleton] at hd
        subst hd
        exact ⟨evs, e2, .inr (.inr ⟨l, by simp [Handled.localSpans, hl], rfl, e3⟩)⟩
      · obtain ⟨evs, e1, e2⟩ := deliveriesOf_show hreg children h4 d hd
        refine ⟨evs, e1, ?_⟩
        rcases e2 with ⟨x, hx, e⟩ | ⟨x, hx, e⟩ | ⟨x, hx, e⟩
        · exact .inl ⟨x, by simp [Handled.requests, hx], e⟩
        · exact .inr (.inl ⟨x, by simp [Handled.clientCalls, hx], e⟩)
        · exact .inr (.inr ⟨x, by simp [Handled.localSpans, hx], e⟩)
theorem deliveriesOf_show {reg : Registry} (hreg : registerAll libraryEvents [] = some reg) : ∀ hs : List Handled, (∀ h ∈ hs, h.Ok) →
    ∀ d ∈ Handled.deliveriesOf hs, ∃ evs, unmarshalEvents reg d.2 = some (evs, none) ∧
      ((∃ s ∈ Handled.requestsOf hs, s.id = d.1 ∧ ShowsRequest s evs) ∨
        (∃ c ∈ Handled.clientCallsOf hs, c.out.recorder.span = d.1 ∧ ShowsCall c evs) ∨
        ∃ l ∈ Handled.localSpansOf hs, l.id = d.1 ∧ AreEvents l.recording.events evs)
  | [], _, d, hd => by cases hd
  | h :: hs, hok, d, hd => by
    simp only [Handled.deliveriesOf, List.mem_append] at hd
    rcases hd with hd | hd
    · obtain ⟨evs, e1, e2⟩ := deliveries_show hreg h (hok h List.mem_cons_self) d hd
      refine ⟨evs, e1, ?_⟩
      rcases e2 with ⟨x, hx, e⟩ | ⟨x, hx, e⟩ | ⟨x, hx, e⟩
      · exact .inl ⟨x, by simp [Handled.requestsOf, hx], e⟩
      · exact .inr (.inl ⟨x, by simp [Handled.clientCallsOf, hx], e⟩)
      · exact .inr (.inr ⟨x, by simp [Handled.localSpansOf, hx], e⟩)
    · obtain ⟨evs, e1, e2⟩ := deliveriesOf_show hreg hs (fun x hx => hok x (List.mem_cons_of_mem _ hx)) d hd
      refine ⟨evs, e1, ?_⟩
      rcases e2 with ⟨x, hx, e⟩ | ⟨x, hx, e⟩ | ⟨x, hx, e⟩
      · exact .inl ⟨x, by simp [Handled.requestsOf, hx], e⟩
      · exact .inr (.inl ⟨x, by simp [Handled.clientCallsOf, hx], e⟩)
      · exact .inr (.inr ⟨x, by simp [Handled.localSpansOf, hx], e⟩)
end

theorem trees_map (hs : List Handled) : Handled.trees hs = hs.map Handled.tree := by
  induction hs with
  | nil => rfl
  | cons h hs ih => simp [Handled.trees, ih]

theorem tree_span (h : Handled) : h.tree.span.id = h.req.id := by
  cases h; rfl

mutual
/-- Every span is a child of the one above it. -/
theorem handled_derived : ∀ h : Handled, h.Ok → ∀ e ∈ h.tree.edges, ∃ g, e.2.id = newSpanID e.1.id g
  | .mk s calls locals children, hok, e, he => by
    cases hok with
    | mk _ _ _ _ h1 h2 h3 h4 h5 =>
      simp only [Handled.tree, Tree.edges, edgesList_append, edgesList_leaves, List.nil_append, List.mem_append, List.map_append,
        List.map_map, trees_map] at he
      rcases he with ((he | he) | he) | he
      · obtain ⟨c, hc, rfl⟩ := List.mem_map.1 he
        have := round_trip_spans c.env c.n c.heap c.original c.out (h2 c hc).trips
        refine ⟨c.out.recorder.span.span, ?_⟩
        have hp := this.1
        rw [(h2 c hc).span] at hp
        show c.out.recorder.span = newSpanID s.id _
        revert hp
        generalize c.out.recorder.span = i
        intro hp
        cases i
        simp only [newSpanID, SpanID.mk.injEq]
        exact ⟨hp.trace, trivial, hp.parent⟩
      · obtain ⟨l, hl, rfl⟩ := List.mem_map.1 he
        exact (h3 l hl).2
      · obtain ⟨h, hh, rfl⟩ := List.mem_map.1 he
        obtain ⟨c, hc, hd⟩ := h5 h hh
        have hs : h.req.Ok := by
          have := h4 h hh
          cases this with
          | mk _ _ _ _ h1 _ _ _ _ => exact h1
        obtain ⟨g, hg⟩ := caused_span (h2 c hc) hs hd
        exact ⟨g, by simp only [Function.comp_apply, tree_span]; exact hg⟩
      · rw [← trees_map] at he
        exact handled_derivedOf children h4 e he
theorem handled_derivedOf : ∀ hs : List Handled, (∀ h ∈ hs, h.Ok) → ∀ e ∈ Tree.edgesList (Handled.trees hs), ∃ g, e.2.id = newSpanID e.1.id g
  | [], _, e, he => by cases he
  | h :: hs, hok, e, he => by
    simp only [Handled.trees, Tree.edgesList, List.mem_append] at he
    rcases he with he | he
    · exact handled_derived h (hok h List.mem_cons_self) e he
    · exact handled_derivedOf hs (fun x hx => hok x (List.mem_cons_of_mem _ hx)) e he
end

mutual
/-- The tree has no annotations. -/
theorem handled_bare : ∀ h : Handled, reannotate (fun _ => []) h.tree = h.tree
  | .mk s calls locals children => by
    have e1 : ∀ {α : Type} (f : α → SpanID) (l : List α), reannotateList (fun _ => []) (l.map fun c => (Tree.node ⟨f c, []⟩ [])) =
        l.map fun c => .node ⟨f c, []⟩ [] := by
      intro α f l
      induction l with
      | nil => rfl
      | cons a l ih => simp [reannotateList, reannotate, ih]
    have e2 : ∀ a b : List Tree, reannotateList (fun _ => []) (a ++ b) = reannotateList (fun _ => []) a ++ reannotateList (fun _ => []) b := by
      intro a b
      induction a with
      | nil => rfl
      | cons t a ih => simp [reannotateList, ih]
    simp only [Handled.tree, reannotate, e1, e2, handled_bareOf children]
theorem handled_bareOf : ∀ hs : List Handled, reannotateList (fun _ => []) (Handled.trees hs) = Handled.trees hs
  | [] => rfl
  | h :: hs => by simp only [Handled.trees, reannotateList, handled_bare h, handled_bareOf hs]
end

/-- A list of pairs whose first components differ is given by a function. -/
theorem as_function {D : List RecCall} (h : (D.map Prod.fst).Nodup) :
    ∃ f : SpanID → List Annotation, D = (D.map Prod.fst).map fun i => (i, f i) := by
  refine ⟨fun i => ((D.find? fun d => decide (d.1 = i)).map Prod.snd).getD [], ?_⟩
  rw [List.map_map]
  refine (List.map_id' D).symm.trans (List.map_congr_left fun d hd => ?_)
  have : D.find? (fun e => decide (e.1 = d.1)) = some d := by
    induction D with
    | nil => cases hd
    | cons a D ih =>
      simp only [List.map_cons, List.nodup_cons] at h
      rcases List.mem_cons.1 hd with rfl | hd
      · simp
      · have : a.1 ≠ d.1 := fun e => h.1 (e ▸ List.mem_map_of_mem hd)
        rw [List.find?_cons_of_neg (by simpa using this)]
        exact ih h.2 hd
  simp [this]

end Appdash
