import Verif.Spec.OpenTracingShown
import Verif.Properties.OpenTracing
import Verif.Proofs.EndToEnd
import Verif.Proofs.SampleData
import Verif.Properties.ChunkedOrder

/-!
# Lemmas about OpenTracing programs and the store
-/

namespace Appdash
open Spec

/-- The thread of a call exists and its span is that of the call. -/
theorem call_thread {env : OTEnv} {verbose : Bool} {s : OTState} (h : OTReach env verbose s) {c : OTCall} (hc : c ∈ s.calls) :
    ∃ i sp acts, s.threads[i]? = some (sp, acts) ∧ c ∈ callsOf s i ∧ c.span = spanIDOf sp ∧ sp.sampled = true := by
  have hlt := calls_owned env verbose s h c hc
  obtain ⟨⟨sp, acts⟩, ht⟩ : ∃ x, s.threads[c.thread]? = some x := ⟨_, List.getElem?_eq_getElem hlt⟩
  have hm : c ∈ callsOf s c.thread := List.mem_filter.2 ⟨hc, by simp⟩
  have hs : sp.sampled = true := by
    cases hb : sp.sampled with
    | true => rfl
    | false =>
      rw [unsampled_not_recorded env verbose s h _ sp acts ht hb] at hm
      cases hm
  exact ⟨c.thread, sp, acts, ht, hm, (recorded_prefix env verbose s h _ sp acts ht hs).1 c hm, hs⟩

/-- If the thread's span ID is its own, the annotations collected for it are those of the thread. -/
theorem annotationsOf_thread {env : OTEnv} {verbose : Bool} {s : OTState} (h : OTReach env verbose s) {t : ID} {i : Nat}
    {sp : RawSpan} {acts : List OTAct} (hi : s.threads[i]? = some (sp, acts)) (ht : sp.trace = t)
    (huniq : ∀ j sp' acts', s.threads[j]? = some (sp', acts') → sp'.trace = t → sp'.span = sp.span → j = i) :
    annotationsOf (forTrace t (collectedBy s)) sp.span = (callsOf s i).flatMap OTCall.as := by
  have key : ∀ cs : List OTCall, (∀ c ∈ cs, c ∈ s.calls) →
      annotationsOf (forTrace t (cs.map fun c => (c.span, c.as))) sp.span = (cs.filter fun c => c.thread = i).flatMap OTCall.as := by
    intro cs
    induction cs with
    | nil => intro _; rfl
    | cons c cs ih =>
      intro hcs
      have ih' := ih fun c hc => hcs c (List.mem_cons_of_mem _ hc)
      obtain ⟨j, sp', acts', hj, hm, hid, -⟩ := call_thread h (hcs c List.mem_cons_self)
      have hjt : c.thread = j := by simpa using (List.mem_filter.1 hm).2
      by_cases hji : c.thread = i
      · have : sp' = sp := by
          rw [← hjt, hji, hi] at hj
          cases hj; rfl
        subst this
        simp only [List.map_cons, forTrace, List.filter_cons, hid, spanIDOf, ht, hji, decide_true, if_true, annotationsOf,
          List.flatMap_cons]
        rw [← ih']
        rfl
      · rw [List.filter_cons_of_neg (by simpa using hji), ← ih']
        by_cases htr : sp'.trace = t
        · have hne : sp'.span ≠ sp.span := fun e => hji (by rw [hjt]; exact huniq j sp' acts' hj htr e)
          simp only [List.map_cons, forTrace, List.filter_cons, hid, spanIDOf, htr, decide_true, if_true, annotationsOf,
            if_neg hne, List.nil_append]
        · simp only [List.map_cons, forTrace, List.filter_cons, hid, spanIDOf, htr, decide_false, Bool.false_eq_true, if_false]
  exact key s.calls fun c hc => hc

/-- Different threads of the trace have spans with different IDs. -/
theorem TracedAs.unique {s : OTState} {tr : Tree} (hT : TracedAs (finishedSpans s) tr) {i j : Nat} {sp sp' : RawSpan}
    {acts acts' : List OTAct} (hi : s.threads[i]? = some (sp, acts)) (ht : sp.trace = tr.span.id.trace)
    (hj : s.threads[j]? = some (sp', acts')) (ht' : sp'.trace = tr.span.id.trace) (he : sp'.span = sp.span) : j = i := by
  have hn : (((finishedSpans s).filter fun sp => sp.trace = tr.span.id.trace).map RawSpan.span).Nodup := by
    have := (hT.spans.map SpanID.span)
    rw [List.map_map, List.map_map] at this
    exact this.nodup_iff.2 hT.tree.distinct
  have key : ∀ (l : List (RawSpan × List OTAct)) (i j : Nat), l[i]? = some (sp, acts) → l[j]? = some (sp', acts') → 
      (((l.map Prod.fst).filter fun sp => sp.trace = tr.span.id.trace).map RawSpan.span).Nodup → j = i := by
    intro l
    induction l with
    | nil => intro i j h; simp at h
    | cons x l ih =>
      intro i j hi hj hn
      have hmem : ∀ k (y : RawSpan) (ys : List OTAct), l[k]? = some (y, ys) → y.trace = tr.span.id.trace →
          y.span ∈ ((l.map Prod.fst).filter fun sp => sp.trace = tr.span.id.trace).map RawSpan.span := fun k y ys hk hy =>
        List.mem_map.2 ⟨y, List.mem_filter.2 ⟨List.mem_map.2 ⟨_, List.mem_of_getElem? hk, rfl⟩, by simpa using hy⟩, rfl⟩
      have hn' : (((l.map Prod.fst).filter fun sp => sp.trace = tr.span.id.trace).map RawSpan.span).Nodup := by
        rw [List.map_cons, List.filter_cons] at hn
        split at hn
        · exact (List.nodup_cons.1 hn).2
        · exact hn
      cases i with
      | zero =>
        cases j with
        | zero => rfl
        | succ j =>
          simp at hi hj
          subst hi
          rw [List.map_cons, List.filter_cons, if_pos (by simpa using ht), List.map_cons, List.nodup_cons] at hn
          exact absurd (he ▸ hmem j _ _ hj ht') hn.1
      | succ i =>
        cases j with
        | zero =>
          simp at hi hj
          subst hj
          rw [List.map_cons, List.filter_cons, if_pos (by simpa using ht'), List.map_cons, List.nodup_cons] at hn
          exact absurd (he ▸ hmem i _ _ hi ht) hn.1
        | succ j =>
          simp at hi hj
          rw [ih i j hi hj hn']
  exact key s.threads i j hi hj hn

theorem recordsAll_ne_nil {env : OTEnv} {sp : RawSpan} {calls : List (List Annotation)} (h : RecordsAll env sp calls) : calls ≠ [] := by
  obtain ⟨name, times, logs, tags, bag, rfl, -⟩ := h
  simp

/-- The store after the calls of the recorder. -/
theorem opentracing_view {env : OTEnv} {verbose : Bool} {s : OTState} (h : OTReach env verbose s)
    (hret : ∀ t ∈ s.threads, t.2 = []) (hok : ∀ c ∈ s.calls, c.answer = none) {tr : Tree} (hT : TracedAs (finishedSpans s) tr)
    {ops : List StoreOp} {ms : MemStore} (hms : MemStore.new.run ops = some ms)
    (hknown : ∀ e ∈ live tr.span.id.trace ops, ∃ e' ∈ collectedBy s, e.1 = e'.1)
    (hcomplete : ∀ e ∈ forTrace tr.span.id.trace (collectedBy s), ∃ e' ∈ live tr.span.id.trace ops, e'.1 = e.1)
    (horder : ∀ u ∈ tr.spans, annotationsOf (live tr.span.id.trace ops) u.id.span =
      annotationsOf (forTrace tr.span.id.trace (collectedBy s)) u.id.span) :
    ∃ tr', ms.view tr.span.id.trace = .found tr' ∧ TreeEquiv (reannotate (fun _ => []) tr') (reannotate (fun _ => []) tr) ∧
      ∀ sp ∈ finishedSpans s, sp.trace = tr.span.id.trace → ∃ u ∈ tr'.spans, u.id = spanIDOf sp ∧ ShowsSpan env sp u.annotations := by
  have hthread : ∀ sp ∈ finishedSpans s, ∃ i : Nat, s.threads[i]? = some (sp, []) := by
    intro sp hsp
    obtain ⟨⟨sp', acts⟩, hx, rfl⟩ := List.mem_map.1 hsp
    obtain ⟨i, hi⟩ := List.getElem?_of_mem hx
    have := hret _ hx
    simp only at this
    subst this
    exact ⟨i, hi⟩
  have hmemspan : ∀ sp ∈ finishedSpans s, sp.trace = tr.span.id.trace → ∃ u ∈ tr.spans, u.id = spanIDOf sp := by
    intro sp hsp ht
    have : spanIDOf sp ∈ tr.spans.map Span.id := hT.spans.subset (List.mem_map.2 ⟨sp, List.mem_filter.2 ⟨hsp, by simpa using ht⟩, rfl⟩)
    obtain ⟨u, hu, e⟩ := List.mem_map.1 this
    exact ⟨u, hu, e⟩
  have hspanmem : ∀ u ∈ tr.spans, ∃ sp ∈ finishedSpans s, sp.trace = tr.span.id.trace ∧ spanIDOf sp = u.id := by
    intro u hu
    have : u.id ∈ ((finishedSpans s).filter fun sp => sp.trace = tr.span.id.trace).map spanIDOf :=
      hT.spans.symm.subset (List.mem_map.2 ⟨u, hu, rfl⟩)
    obtain ⟨sp, hsp, e⟩ := List.mem_map.1 this
    obtain ⟨h1, h2⟩ := List.mem_filter.1 hsp
    exact ⟨sp, h1, by simpa using h2, e⟩
  obtain ⟨tr', h1, h2, h3⟩ := annotated_view hms hT.tree
    (fun id => annotationsOf (forTrace tr.span.id.trace (collectedBy s)) id.span) (by
      intro e he
      obtain ⟨e', he', ee⟩ := hknown e he
      obtain ⟨c, hc, rfl⟩ := List.mem_map.1 he'
      obtain ⟨i, sp, acts, hi, -, hid, -⟩ := call_thread h hc
      have htr := live_trace _ ops e he
      rw [ee] at htr
      simp only at htr
      obtain ⟨u, hu, eu⟩ := hmemspan sp (List.mem_map.2 ⟨_, List.mem_of_getElem? hi, rfl⟩) (by rw [hid] at htr; exact htr)
      exact ⟨u, hu, by rw [ee, eu]; exact hid⟩) (by
      intro u hu
      obtain ⟨sp, hsp, ht, e⟩ := hspanmem u hu
      obtain ⟨i, hi⟩ := hthread sp hsp
      have hra := recorded_ok h hi (hT.sampled sp hsp ht) fun c hc => hok c (List.mem_filter.1 hc).1
      obtain ⟨c, hc⟩ := List.exists_mem_of_ne_nil _ (recordsAll_ne_nil hra)
      obtain ⟨c, hc, -⟩ := List.mem_map.1 hc
      have hid := (recorded_prefix env verbose s h i sp [] hi (hT.sampled sp hsp ht)).1 c hc
      have hc' := (List.mem_filter.1 hc).1
      obtain ⟨e', he', ee⟩ := hcomplete (c.span, c.as) (List.mem_filter.2 ⟨List.mem_map.2 ⟨c, hc', rfl⟩, by simp [hid, ht]⟩)
      exact ⟨e', he', by rw [ee, ← e]; exact hid⟩) horder
  refine ⟨tr', h1, ?_, ?_⟩
  · have := treeEquiv_reannotate (fun _ => []) h2
    rwa [reannotate_twice] at this
  · intro sp hsp ht
    obtain ⟨u, hu, eu⟩ := hmemspan sp hsp ht
    have hids := treeEquiv_ids h2
    have : u.id ∈ tr'.spans.map Span.id := by
      rw [hids.mem_iff, reannotate_spans, List.map_map]
      exact List.mem_map.2 ⟨u, hu, rfl⟩
    obtain ⟨u', hu', eu'⟩ := List.mem_map.1 this
    refine ⟨u', hu', by rw [eu', eu], ?_⟩
    obtain ⟨i, hi⟩ := hthread sp hsp
    have hra := recorded_ok h hi (hT.sampled sp hsp ht) fun c hc => hok c (List.mem_filter.1 hc).1
    refine ⟨_, hra, ?_⟩
    rw [(h3 u' hu').2, eu', eu]
    have := annotationsOf_thread h hi ht fun j sp' acts' hj ht' he => TracedAs.unique hT hi ht hj ht' he
    rw [List.flatMap_def] at this
    exact this

/-- If the calls for a trace are for spans of the tree, a span's annotations may be found by its whole ID. -/
theorem annotationsOf_wholeID {tr : Tree} (hc : CausalTree tr) {u : Span} (hu : u ∈ tr.spans) (L : List Entry)
    (hL : ∀ e ∈ L, e.1.trace = tr.span.id.trace → ∃ v ∈ tr.spans, e.1 = v.id) :
    annotationsOf (forTrace tr.span.id.trace L) u.id.span = Chunked.annotationsOf u.id L := by
  induction L with
  | nil => rfl
  | cons e L ih =>
    have ih' := ih fun e he => hL e (List.mem_cons_of_mem _ he)
    rw [Chunked.annotationsOf_cons, ← ih']
    by_cases ht : e.1.trace = tr.span.id.trace
    · obtain ⟨v, hv, ev⟩ := hL e List.mem_cons_self ht
      have : e.1.span = u.id.span ↔ e.1 = u.id := by
        constructor
        · intro h
          rw [ev] at h ⊢
          rw [span_unique hc.distinct hv hu h]
        · intro h; rw [h]
      simp only [forTrace, List.filter_cons, ht, decide_true, if_true, annotationsOf, this]
    · have hne : e.1 ≠ u.id := fun h => ht (by rw [h, hc.trace u hu])
      simp only [forTrace, List.filter_cons, ht, decide_false, Bool.false_eq_true, if_false, if_neg hne, List.nil_append]

end Appdash
