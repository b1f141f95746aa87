import Verif.Properties.MixedClients
import Verif.Properties.WebApp

/-!
# Property C137: from the processes of a program to the page in the browser
-/

namespace Appdash

open Spec Py

/-- The events of the span can be read. -/
def EventsReadable (reg : Registry) (s : Span) : Prop := ∃ evs, unmarshalEvents reg s.annotations = some (evs, none)

theorem EventsReadable.times {reg : Registry} {s : Span} (h : EventsReadable reg s) : ∃ ts, spanTimes reg s.annotations = some (.ok ts) := by
  obtain ⟨evs, h⟩ := h
  simp only [spanTimes, h]
  exact ⟨_, rfl⟩

mutual

theorem timeline_readable (env : ViewEnv) : ∀ (t : Tree) (depth : Nat), (∀ s ∈ t.spans, EventsReadable env.reg s) →
    (∃ items, d3timelineInner env depth t = some (.ok items)) ∨ d3timelineInner env depth t = some (.error .validation)
  | .node s cs, depth, h => by
    obtain ⟨ts, hts⟩ := (h s (by simp [Tree.spans])).times
    have hsub := timelineSubs_readable env cs (depth + 1) (fun c hc x hx => h x (by
      rw [Tree.spans]
      exact List.mem_cons_of_mem _ (mem_spansList.2 ⟨c, hc, hx⟩)))
    simp only [d3timelineInner, hts]
    split
    · exact .inr rfl
    · split
      · exact .inl ⟨_, rfl⟩
      · rcases hsub with ⟨items, e⟩ | e
        · rw [e]; exact .inl ⟨_, rfl⟩
        · rw [e]; exact .inr rfl

theorem timelineSubs_readable (env : ViewEnv) : ∀ (cs : List Tree) (depth : Nat), (∀ c ∈ cs, ∀ s ∈ c.spans, EventsReadable env.reg s) →
    (∃ items, d3timelineSubs env depth cs = some (.ok items)) ∨ d3timelineSubs env depth cs = some (.error .validation)
  | [], depth, _ => .inl ⟨[], by simp [d3timelineSubs]⟩
  | c :: cs, depth, h => by
    have h1 := timeline_readable env c depth (h c (by simp))
    have h2 := timelineSubs_readable env cs depth (fun c hc => h c (List.mem_cons_of_mem _ hc))
    simp only [d3timelineSubs]
    rcases h1 with ⟨items, e⟩ | e
    · rw [e]
      rcases h2 with ⟨items, e⟩ | e
      · rw [e]; exact .inl ⟨_, rfl⟩
      · rw [e]; exact .inr rfl
    · rw [e]; exact .inr rfl

end

/-- A trace whose events can be read has a page. -/
theorem readable_page (env : ViewEnv) (Z : Flate) (nils : SpanID → Bool × Bool) (tr : Tree) (h : ∀ s ∈ tr.spans, EventsReadable env.reg s) :
    ∃ pg, tracePage env Z nils tr = some (.ok (.page pg)) := by
  unfold tracePage d3timeline
  rcases timeline_readable env tr 0 h with ⟨items, e⟩ | e <;> rw [e] <;> exact ⟨_, rfl⟩

/-- What a browser gets for the URLs of a trace that the store shows. -/
theorem found_on_page {τ : Type} {env : WebEnv τ} {files : TemplateFiles} (hg : GoodFiles env files)
    {st : WebState τ} (ht : st.tmpls = none ∨ env.reload = true) {hdr : Header} {t : ID} {tr' : Tree} (hv : st.store.view t = .found tr') :
    ∃ tmpl, Compiled env files b!"trace.html" tmpl ∧
      (∀ st' out, AppServes env files st ⟨.get, urlToTrace t, [], hdr, []⟩ [] st' out →
        st'.store = st.store ∧
        ((∃ pg, AnsweredBy out (pageAnswer env tmpl ⟨.trace, urlToTrace t, [], env.agg.isSome⟩ (.trace pg)) ∧
            pg.trace = tr' ∧ IsExport env.nils tr' pg.json) ∨
          ∃ msg, AnsweredBy out (.failed msg) ∧ ∃ sp ∈ tr'.spans, ¬ EventsReadable env.view.reg sp)) ∧
      ∀ st' out, AppServes env files st ⟨.get, urlToTraceProfile t, [], hdr, []⟩ [] st' out →
        st'.store = st.store ∧ AnsweredBy out (match calcProfile env.view tr' with
          | some (.ok (ps, _)) => .data (JVal.print .compact 0 (.arr (ps.map fun p => .obj (profileMembers p))))
          | some (.error e) => .failed (env.errText (.page (.event e)))
          | none => .failed env.panicText) := by
  have hl : st.store.lookup t = .ok tr' := by simp only [MemStore.lookup, hv]
  obtain ⟨tmpl, htmpl⟩ := hg b!"trace.html" (by simp)
  obtain ⟨v1, v2⟩ := visit_trace st.store.lookup t
  rw [hl] at v1 v2
  refine ⟨tmpl, htmpl, ?_, ?_⟩
  · intro st' out h
    obtain ⟨h1, t', n, vars, h2, h3, h4⟩ := trace_request_answer hg ht
      (r := ⟨.get, urlToTrace t, [], hdr, []⟩) rfl rfl v1 h
    have h2 := compiled_unique h2 htmpl
    subst h2
    rw [dispatch_trace] at h3
    injection h3 with h3
    subst h3
    refine ⟨h1, ?_⟩
    simp only [Except.mapError, Except.map, traceAnswer] at h4
    have hshape : ∀ pg, tracePage env.view env.flate env.nils tr' = some (.ok (.page pg)) →
        pg.trace = tr' ∧ IsExport env.nils tr' pg.json := by
      intro pg hp
      unfold tracePage at hp
      split at hp
      · cases hp
      · cases hp
      · simp only [Option.some.injEq, Except.ok.injEq, Shown.page.injEq] at hp
        subst hp
        exact ⟨rfl, exportText_isExport _ _⟩
      · simp only [Option.some.injEq, Except.ok.injEq, Shown.page.injEq] at hp
        subst hp
        exact ⟨rfl, exportText_isExport _ _⟩
    have hnoprof : ∀ ps, tracePage env.view env.flate env.nils tr' ≠ some (.ok (.profile ps)) := by
      intro ps hp
      unfold tracePage at hp
      split at hp <;> cases hp
    have hread : (∀ pg, tracePage env.view env.flate env.nils tr' ≠ some (.ok (.page pg))) → ∃ sp ∈ tr'.spans, ¬ EventsReadable env.view.reg sp := by
      intro hno
      by_contra hall
      push Not at hall
      obtain ⟨pg, hpg⟩ := readable_page env.view env.flate env.nils tr' hall
      exact hno pg hpg
    rcases hp : tracePage env.view env.flate env.nils tr' with _ | e | pg | ps
    · rw [hp] at h4
      exact Or.inr ⟨_, h4, hread (fun pg h => by rw [hp] at h; cases h)⟩
    · rw [hp] at h4
      exact Or.inr ⟨_, h4, hread (fun pg h => by rw [hp] at h; cases h)⟩
    · rw [hp, common_eq] at h4
      exact Or.inl ⟨pg, h4, hshape pg hp⟩
    · exact absurd hp (hnoprof ps)
  · intro st' out h
    obtain ⟨h1, t', n, vars, -, -, h4⟩ := trace_request_answer hg ht
      (r := ⟨.get, urlToTraceProfile t, [], hdr, []⟩) rfl rfl v2 h
    refine ⟨h1, ?_⟩
    simp only [Except.mapError, Except.map, traceAnswer] at h4
    rcases hp : calcProfile env.view tr' with _ | e | ⟨ps, p⟩ <;> rw [hp] at h4 <;> exact h4

/-- **C137**.  The spans of a trace are collected in processes in Go and Python (as in C129) and the server has handled what they sent.  A
browser that asks the web application on this store for the URL of the trace gets the page that the template makes of the tree of the program's
spans with all their annotations, and the data of this page contain a JSON text of just this tree, unless the events of a span cannot be read; for the profile URL it gets the profile of
this tree. -/
theorem program_on_page {clients : List Client} (hd : ∀ c ∈ clients, c.Done) {tr : Tree} (hc : CausalTree tr)
    (hr : Reports (forTrace tr.span.id.trace (clients.flatMap Client.collected)) tr) {s : ServerState}
    (hs : MixedServerDone s clients tr.span.id.trace) {τ : Type} {env : WebEnv τ} {files : TemplateFiles} (hg : GoodFiles env files)
    {st : WebState τ} (hst : st.store = s.store) (ht : st.tmpls = none ∨ env.reload = true) {hdr : Header} :
    ∃ tr' tmpl, TreeEquiv tr' tr ∧ Compiled env files b!"trace.html" tmpl ∧
      (∀ st' out, AppServes env files st ⟨.get, urlToTrace tr.span.id.trace, [], hdr, []⟩ [] st' out →
        st'.store = st.store ∧
        ((∃ pg, AnsweredBy out (pageAnswer env tmpl ⟨.trace, urlToTrace tr.span.id.trace, [], env.agg.isSome⟩ (.trace pg)) ∧
            pg.trace = tr' ∧ IsExport env.nils tr' pg.json) ∨
          ∃ msg, AnsweredBy out (.failed msg) ∧ ∃ sp ∈ tr'.spans, ¬ EventsReadable env.view.reg sp)) ∧
      ∀ st' out, AppServes env files st ⟨.get, urlToTraceProfile tr.span.id.trace, [], hdr, []⟩ [] st' out →
        st'.store = st.store ∧ AnsweredBy out (match calcProfile env.view tr' with
          | some (.ok (ps, _)) => .data (JVal.print .compact 0 (.arr (ps.map fun p => .obj (profileMembers p))))
          | some (.error e) => .failed (env.errText (.page (.event e)))
          | none => .failed env.panicText) := by
  obtain ⟨tr', hv, he, -⟩ := mixed_program_shown hd hc hr hs
  obtain ⟨tmpl, h1, h2⟩ := found_on_page hg ht (hdr := hdr) (by rw [hst]; exact hv)
  exact ⟨tr', tmpl, he, h1, h2⟩

/-- The program of three processes of `Properties/MixedClients`, and a web application on the store of its server: the browser gets the page or
the profile of the trace. -/
example : ∃ (s : ServerState) (tr' : Tree), TreeEquiv tr' mixedTree ∧
    (∃ st' out, AppServes (sampleWeb false) namedFiles ⟨s.store, none⟩ (getRequest (urlToTrace 1)) [] st' out) ∧
    ∀ st' out, AppServes (sampleWeb false) namedFiles ⟨s.store, none⟩ (getRequest (urlToTrace 1)) [] st' out →
      (AnsweredBy out (.html b!"/trace.html/layout.html")) ∨ ∃ sp ∈ tr'.spans, ¬ EventsReadable sampleEnv.reg sp := by
  obtain ⟨a, s, h1, h2, h3, -⟩ := mixed_program_exists
  obtain ⟨tr', tmpl, e1, e2, e3, -⟩ := program_on_page h1 mixedTree_ok h2 h3 (namedFiles_good false) (st := ⟨s.store, none⟩) rfl (.inl rfl)
    (hdr := [])
  refine ⟨s, tr', e1, (app_answers (sampleWeb false) namedFiles ⟨s.store, none⟩ (getRequest (urlToTrace 1))).1, ?_⟩
  intro st' out h
  rcases (e3 st' out h).2 with ⟨pg, h1, -⟩ | ⟨msg, -, h2⟩
  · have : tmpl = [b!"/trace.html", b!"/layout.html"] := compiled_unique e2 ⟨_, _, rfl, rfl, rfl⟩
    subst this
    exact .inl h1
  · exact .inr h2

end Appdash
