import Verif.Properties.ProgramCrash
import Verif.Properties.ProgramPage

/-!
# Property C160: what Go and Python programs collected is on the page after crashes of the server

The executions of the server's process are those of C31, C155 and C156.  `s` is the collector server of C111 and C129: the calls for the
trace that the process made on its store are those of the server.
-/

namespace Appdash

open Spec Py

variable {file : FileName} {enc : GobData → List UInt8} {dec : List UInt8 → Option GobData}

/-- **C160** (any trace).  What the collector server has of a trace when the snapshot is written is what every later process shows. -/
theorem server_trace_survives (hdec : ∀ d, dec (enc d) = some d) {t : ID} {s : ServerState} (hsr : ServerReachable s)
    {fs : AMap FileName (List UInt8)}
    (hf : ∀ b, fs.get file = some b → ∃ ms d, MemStore.Reachable ms ∧ ms.Writes d ∧ b = enc d ∧ ms.view t = .notFound)
    {e0 e1 e2 e3 : List PersistEvent} {ms : MemStore} {σ : PersistState}
    (h : PersistRuns file enc dec ⟨fs, none⟩ (e0 ++ .start :: e1 ++ .write ms :: e2 ++ .rename :: e3) σ)
    (hs : .start ∉ e1) (hc : .crash ∉ e2) (hu : Untouched t (e0 ++ e2 ++ e3))
    (hL : live t (storeCalls e1) = forTrace t (s.calls.map Prod.snd)) {ms' : MemStore} {pc : PersistPC} (hp : σ.proc = some (ms', pc)) :
    SameResult (s.store.view t) (ms'.view t) := by
  obtain ⟨ms1, m1, same⟩ := shown_after_crashes hdec hf h hs hc hu hp
  rwa [view_of_live m1 (server_calls_stored hsr) t (by rw [hL, server_live])] at same

/-- **C160** (programs).  The spans of a trace are collected in processes in Go and Python, and the server has handled what they sent before
the snapshot is written.  Every process that runs later shows the tree of the program's spans with all their annotations (an empty value may
have become nil), and Go reads the same events from them. -/
theorem mixed_survives_crashes {reg : Registry} (hreg : registerAll libraryEvents [] = some reg) (hdec : ∀ d, dec (enc d) = some d)
    {clients : List Client} (hd : ∀ c ∈ clients, c.Done) {tr : Tree}
    (hct : CausalTree tr) (hr : Reports (forTrace tr.span.id.trace (clients.flatMap Client.collected)) tr) {s : ServerState}
    (hsd : MixedServerDone s clients tr.span.id.trace) {fs : AMap FileName (List UInt8)}
    (hf : ∀ b, fs.get file = some b →
      ∃ ms d, MemStore.Reachable ms ∧ ms.Writes d ∧ b = enc d ∧ ms.view tr.span.id.trace = .notFound)
    {e0 e1 e2 e3 : List PersistEvent} {ms : MemStore} {σ : PersistState}
    (h : PersistRuns file enc dec ⟨fs, none⟩ (e0 ++ .start :: e1 ++ .write ms :: e2 ++ .rename :: e3) σ)
    (hs : .start ∉ e1) (hc : .crash ∉ e2) (hu : Untouched tr.span.id.trace (e0 ++ e2 ++ e3))
    (hL : live tr.span.id.trace (storeCalls e1) = forTrace tr.span.id.trace (s.calls.map Prod.snd))
    {ms' : MemStore} {pc : PersistPC} (hp : σ.proc = some (ms', pc)) :
    ∃ tr0 tr', s.store.view tr.span.id.trace = .found tr0 ∧ ms'.view tr.span.id.trace = .found tr' ∧ TreeEquiv tr0 tr ∧ SameTree tr0 tr' ∧
      ∀ sp ∈ tr'.spans, ∃ sp0 ∈ tr0.spans, sp0.id = sp.id ∧ unmarshalEvents reg sp.annotations = unmarshalEvents reg sp0.annotations := by
  have same := server_trace_survives hdec hsd.reach hf h hs hc hu hL hp
  obtain ⟨tr0, v1, v2, -⟩ := mixed_program_shown hd hct hr hsd
  rw [v1] at same
  generalize hr : ms'.view tr.span.id.trace = r at same
  cases same with
  | @found _ tr' st =>
    refine ⟨tr0, tr', v1, rfl, v2, st, fun sp hsp => ?_⟩
    obtain ⟨sp', q1, q2, q3⟩ := SameTree.spans st sp hsp
    exact ⟨sp', q1, q2, (unmarshalEvents_same (fun s E => library_no_unmarshaler hreg) q3).symm⟩

/-- **C160** (the page).  A browser that asks the web application of a later process for the URL of the trace gets the page that the template
makes of this tree, with a JSON text of just this tree, unless the events of a span cannot be read. -/
theorem page_survives_crashes {reg : Registry} (hreg : registerAll libraryEvents [] = some reg) (hdec : ∀ d, dec (enc d) = some d)
    {clients : List Client} (hd : ∀ c ∈ clients, c.Done) {tr : Tree}
    (hct : CausalTree tr) (hr : Reports (forTrace tr.span.id.trace (clients.flatMap Client.collected)) tr) {s : ServerState}
    (hsd : MixedServerDone s clients tr.span.id.trace) {fs : AMap FileName (List UInt8)}
    (hf : ∀ b, fs.get file = some b →
      ∃ ms d, MemStore.Reachable ms ∧ ms.Writes d ∧ b = enc d ∧ ms.view tr.span.id.trace = .notFound)
    {e0 e1 e2 e3 : List PersistEvent} {ms : MemStore} {σ : PersistState}
    (h : PersistRuns file enc dec ⟨fs, none⟩ (e0 ++ .start :: e1 ++ .write ms :: e2 ++ .rename :: e3) σ)
    (hs : .start ∉ e1) (hc : .crash ∉ e2) (hu : Untouched tr.span.id.trace (e0 ++ e2 ++ e3))
    (hL : live tr.span.id.trace (storeCalls e1) = forTrace tr.span.id.trace (s.calls.map Prod.snd))
    {ms' : MemStore} {pc : PersistPC} (hp : σ.proc = some (ms', pc))
    {τ : Type} {env : WebEnv τ} (henv : env.view.reg = reg) {files : TemplateFiles} (hg : GoodFiles env files)
    {st : WebState τ} (hst : st.store = ms') (ht : st.tmpls = none ∨ env.reload = true) {hdr : Header} :
    ∃ tr0 tr' tmpl, s.store.view tr.span.id.trace = .found tr0 ∧ TreeEquiv tr0 tr ∧ SameTree tr0 tr' ∧
      Compiled env files b!"trace.html" tmpl ∧
      ∀ st' out, AppServes env files st ⟨.get, urlToTrace tr.span.id.trace, [], hdr, []⟩ [] st' out →
        st'.store = st.store ∧
        ((∃ pg, AnsweredBy out (pageAnswer env tmpl ⟨.trace, urlToTrace tr.span.id.trace, [], env.agg.isSome⟩ (.trace pg)) ∧
            pg.trace = tr' ∧ IsExport env.nils tr' pg.json) ∨
          ∃ msg, AnsweredBy out (.failed msg) ∧ ∃ sp ∈ tr0.spans, ¬ EventsReadable reg sp) := by
  obtain ⟨tr0, tr', v1, v2, v3, v4, v5⟩ := mixed_survives_crashes hreg hdec hd hct hr hsd hf h hs hc hu hL hp
  obtain ⟨tmpl, h1, h2, -⟩ := found_on_page hg ht (hdr := hdr) (by rw [hst]; exact v2)
  refine ⟨tr0, tr', tmpl, v1, v3, v4, h1, fun st' out ha => ?_⟩
  obtain ⟨k1, k2⟩ := h2 st' out ha
  refine ⟨k1, k2.imp_right ?_⟩
  rintro ⟨msg, m1, sp, m2, m3⟩
  obtain ⟨sp0, n1, -, n2⟩ := v5 sp m2
  refine ⟨msg, m1, sp0, n1, fun ⟨evs, hev⟩ => m3 ⟨evs, ?_⟩⟩
  rw [henv, n2]
  exact hev

/-- The program of three processes of `Properties/MixedClients`: its server's process writes a snapshot, crashes, is started again, gets a
call of another trace, and crashes again; all hypotheses are met with the third process. -/
example (enc : GobData → List UInt8) (dec : List UInt8 → Option GobData) (hdec : ∀ d, dec (enc d) = some d) :
    ∃ (clients : List Client) (s : ServerState) (e0 e1 e2 e3 : List PersistEvent) (ms : MemStore) (σ : PersistState) (ms' : MemStore),
      (∀ c ∈ clients, c.Done) ∧ Reports (forTrace 1 (clients.flatMap Client.collected)) mixedTree ∧ MixedServerDone s clients 1 ∧
      PersistRuns b!"f" enc dec ⟨[], none⟩ (e0 ++ .start :: e1 ++ .write ms :: e2 ++ .rename :: e3) σ ∧ .start ∉ e1 ∧ .crash ∉ e2 ∧
      Untouched 1 (e0 ++ e2 ++ e3) ∧ live 1 (storeCalls e1) = forTrace 1 (s.calls.map Prod.snd) ∧ .crash ∈ e3 ∧
      (∃ as, .call (.collect ⟨3, 3, 0⟩ as) ∈ e3) ∧ σ.proc = some (ms', .idle) := by
  obtain ⟨a, s, c1, c2, c3, -⟩ := mixed_program_exists
  have hm := mixedTree_ok
  let ops : List StoreOp := (forTrace 1 (s.calls.map Prod.snd)).map fun e => .collect e.1 e.2
  have hlive : ∀ t, live t ops = forTrace t (forTrace 1 (s.calls.map Prod.snd)) := fun t => live_of_collects _ _ _ rfl
  have hl1 : live 1 ops = forTrace 1 (s.calls.map Prod.snd) := by
    rw [hlive]; simp [forTrace, List.filter_filter]
  obtain ⟨ms, h1, -⟩ := run_loose new_loose ops
  have hview : ms.view 1 = s.store.view 1 := view_of_live h1 (server_calls_stored c3.reach) 1 (by rw [hl1, server_live])
  obtain ⟨tr0, v1, v2, -⟩ := mixed_program_shown c1 hm c2 c3
  have v1 : s.store.view 1 = .found tr0 := v1
  obtain ⟨d, h2⟩ := (write_returns_iff_partial h1).2 (by
    intro t k ⟨e, he, hk⟩
    rw [hlive, forTrace, List.mem_filter] at he
    have ht : t = 1 := by
      have h1 := he.2
      have h2 := (List.mem_filter.1 he.1).2
      simp only [decide_eq_true_eq] at h1 h2
      rw [← h1, h2]
    subst ht
    refine ⟨tr0, by rw [hview, v1], ?_⟩
    have hin : e ∈ forTrace 1 ([Client.go a, .socket querySocket, .twisted helperTwisted].flatMap Client.collected) := by
      have := mixed_live c3 c1
      rw [server_live] at this
      exact this.subset he.1
    obtain ⟨sp, hsp, he2⟩ := c2.known e hin
    have : sp.id ∈ tr0.spans.map Span.id := (treeEquiv_ids v2).mem_iff.2 (List.mem_map_of_mem hsp)
    obtain ⟨v, hv, hvid⟩ := List.mem_map.1 this
    exact ⟨v, hv, by rw [hvid, ← he2, hk]⟩)
  have hne : b!"t" ≠ b!"f" := by decide
  let run1 := PersistRuns.step (enc := enc) (dec := dec) (.refl ⟨[], none⟩) (.startEmpty (file := b!"f") rfl)
  let run2 := persist_calls ops run1 h1
  let run3 := run2.step (.temp (tmp := b!"t") rfl hne)
  let run4 := run3.step (.write h2)
  let run5 := run4.step (by
    have := PersistStep.chunk (file := b!"f") (enc := enc) (dec := dec) (fs := AMap.set [] b!"t" [])
      (ms := ms) (tmp := b!"t") (now := enc d) (rest := []) (old := []) (AMap.get_set_self _ _ _)
    rw [List.append_nil] at this
    exact this)
  let run6 := run5.step .writeDone
  let run7 := run6.step .close
  let run8 := run7.step (.rename (AMap.get_set_self _ _ _))
  let run9 := run8.step .crash
  let run10 := run9.step (.startRead (AMap.get_set_self _ _ _) (hdec d))
  obtain ⟨ms3, h3, -⟩ := step_loose ((run10.reach hdec (by rintro b ⟨⟩)).1.1 _ _ rfl).sound.loose (.collect ⟨3, 3, 0⟩ [])
  let run11 := run10.step (.call h3 (by intros; exact fun h => by cases h))
  let run12 := run11.step .crash
  let run13 := run12.step (.startRead (AMap.get_set_self _ _ _) (hdec d))
  refine ⟨[.go a, .socket querySocket, .twisted helperTwisted], s, [], ops.map .call ++ [.other], [.other, .other, .other],
    [.crash, .start, .call (.collect ⟨3, 3, 0⟩ []), .crash, .start], ms, _, _, c1, c2, c3, by simpa using run13, by simp, by simp, ?_, ?_,
    by simp, ⟨[], by simp⟩, rfl⟩
  · intro op ho
    simp at ho
    subst ho
    show ¬ (3 : ID) = 1
    decide
  · rw [← hl1]
    congr 1
    simp [storeCalls]

end Appdash
