import Verif.Proofs.RecentTrace
import Verif.Properties.Recent
import Verif.Properties.EndToEnd
import Verif.Properties.Serve
import Verif.Properties.ProgramPage

/-!
# Property C152: the traces of a program in a store that deletes old traces
-/

namespace Appdash.RecentTrace

open Spec

/-- **C152**, as stated: when nothing is left to be done, a `RecentStore` that received calls that report the spans of a causal tree shows
the whole tree, or nothing of it. -/
def WholeOrGone : Prop :=
  ∀ (age : Int) (h : List RecentObs) (rs : RecentStore) (tr : Tree), RecentRuns age RecentStore.new h rs → Spec.Monotone 0 h →
    rs.pending = [] → rs.jobs = [] → CausalTree tr → Reports (forTrace tr.span.id.trace (h.filterMap called)) tr →
    rs.under.view tr.span.id.trace = .notFound ∨ ∃ tr', rs.under.view tr.span.id.trace = .found tr' ∧ TreeEquiv tr' tr

/-- **C152** (what holds, as long as the trace is young).  As long as no eviction is decided more than `MinEvictAge` after the first
`Collect` call for the trace, and no call for the trace is under way, `Trace` returns the tree with all its spans and annotations. -/
theorem young_whole_partial {age : Int} {h : List RecentObs} {rs : RecentStore} {tr : Tree} (r : RecentRuns age RecentStore.new h rs)
    (hc : CausalTree tr) (hr : Reports (forTrace tr.span.id.trace (h.filterMap called)) tr) (hy : Young age tr.span.id.trace h)
    (hp : ∀ e ∈ rs.pending, e.1.trace ≠ tr.span.id.trace) :
    ∃ tr', rs.under.view tr.span.id.trace = .found tr' ∧ TreeEquiv tr' tr := by
  have hl := live_undeleted h (r.young_undeleted hy) []
  rw [List.nil_append] at hl
  have hperm := r.arrived hp
  refine causal_view r.tracks.run hc ?_
  rw [hl]
  exact ⟨fun e he => hr.known e (hperm.subset he), fun sp hsp => by
      obtain ⟨e, he, ee⟩ := hr.complete sp hsp
      exact ⟨e, hperm.symm.subset he, ee⟩, fun sp hsp => (hperm.flatMap_right _).trans (hr.annotations sp hsp)⟩

/-- **C152** (what holds, later).  If all calls for the trace were made and passed on while the trace was young, during `h1`, then after
any further history `h2` `Trace` returns the whole tree, unless the trace was deleted during `h2`; and then it returns nothing.  Missing:
traces with calls made or passed on after an eviction of the trace was decided. -/
theorem whole_or_gone_partial {age : Int} {h1 h2 : List RecentObs} {rs : RecentStore} {tr : Tree}
    (r : RecentRuns age RecentStore.new (h1 ++ h2) rs) (hc : CausalTree tr)
    (hr : Reports (forTrace tr.span.id.trace (h1.filterMap called)) tr) (hy : Young age tr.span.id.trace h1)
    (hp : (forTrace tr.span.id.trace (h1.filterMap called)).length = (forTrace tr.span.id.trace (h1.filterMap passedOn)).length)
    (hn : forTrace tr.span.id.trace (h2.filterMap called) = []) :
    ((∀ ids, .deleted ids ∈ h2 → tr.span.id.trace ∉ ids) ∧
      ∃ tr', rs.under.view tr.span.id.trace = .found tr' ∧ TreeEquiv tr' tr) ∨
    ((∃ ids, .deleted ids ∈ h2 ∧ tr.span.id.trace ∈ ids) ∧ rs.under.view tr.span.id.trace = .notFound) := by
  obtain ⟨rs1, r1⟩ := r.prefix_run
  have T := r.tracks
  have T1 := r1.tracks
  generalize ht : tr.span.id.trace = t at *
  have len : ∀ L : List Entry, L.countP (fun e => decide (e.1.trace = t)) = (forTrace t L).length :=
    fun L => by rw [forTrace, List.countP_eq_length_filter]
  have hp1 : ∀ e ∈ rs1.pending, e.1.trace ≠ t := by
    have := T1.open_calls t (by rw [len, len]; exact hp)
    rw [ofTrace, List.filter_eq_nil_iff] at this
    intro e he
    simpa using this e he
  have hs2 : forTrace t (h2.filterMap passedOn) = [] := by
    have := T.pend.countP_eq (fun e : Entry => decide (e.1.trace = t))
    simp only [List.filterMap_append, len, forTrace_append, List.length_append] at this
    rw [hn, List.length_nil] at this
    exact List.eq_nil_of_length_eq_zero (by omega)
  have hrun := T.run
  rw [List.filterMap_append] at hrun
  by_cases hd : ∃ ids, RecentObs.deleted ids ∈ h2 ∧ t ∈ ids
  · refine .inr ⟨hd, ?_⟩
    obtain ⟨ids, hm, hti⟩ := hd
    have := live_deleted hm hti hs2 (h1.filterMap underlying)
    rcases run_view hrun t with ⟨-, q⟩ | ⟨q, -⟩
    · exact q
    · exact absurd this q
  · refine .inl ⟨fun ids hm hti => hd ⟨ids, hm, hti⟩, ?_⟩
    have hl := live_undeleted h2 (fun ids hm hti => hd ⟨ids, hm, hti⟩) (h1.filterMap underlying)
    have hl1 := live_undeleted h1 (r1.young_undeleted hy) []
    rw [List.nil_append] at hl1
    rw [hs2, List.append_nil, hl1] at hl
    have hperm := r1.arrived hp1
    rw [← ht]
    refine causal_view hrun hc ?_
    rw [ht, hl]
    exact ⟨fun e he => hr.known e (hperm.subset he), fun sp hsp => by
        obtain ⟨e, he, ee⟩ := hr.complete sp hsp
        exact ⟨e, hperm.symm.subset he, ee⟩, fun sp hsp => (hperm.flatMap_right _).trans (hr.annotations sp hsp)⟩

/-- **C152** (what holds, for what was recorded).  While the trace is young, `UnmarshalEvents` of the annotations of each span in what
`Trace` returns gives the events that the program recorded for this span, in order. -/
theorem young_events_partial {reg : Registry} (hreg : registerAll libraryEvents [] = some reg) {age : Int} {h : List RecentObs}
    {rs : RecentStore} (r : RecentRuns age RecentStore.new h rs) {tr : Tree} (hc : CausalTree tr) (recs : SpanID → Recording)
    (hp : ∀ sp ∈ tr.spans, (recs sp.id).Proper sp.id)
    (hr : (forTrace tr.span.id.trace (h.filterMap called)).Perm (tr.spans.flatMap fun sp => (recs sp.id).calls sp.id))
    (hy : Young age tr.span.id.trace h) (hn : ∀ e ∈ rs.pending, e.1.trace ≠ tr.span.id.trace) :
    ∃ tr', rs.under.view tr.span.id.trace = .found tr' ∧ TreeEquiv (reannotate (fun _ => []) tr') (reannotate (fun _ => []) tr) ∧
      ∀ sp ∈ tr'.spans, ∃ out, unmarshalEvents reg sp.annotations = some (out, none) ∧ AreEvents (recs sp.id).events out := by
  have hl := live_undeleted h (r.young_undeleted hy) []
  rw [List.nil_append] at hl
  refine recorded_program_shown hreg r.tracks.run hc recs hp ?_
  rw [hl]
  exact (r.arrived hn).trans hr

/-- **C152** (what holds, for `appdash serve`).  After a start of the server, with a store file or without, a trace that was not in the
file is shown in the same way, in the store and on the page of the trace; as long as it is young, and no call for it is under way. -/
theorem serve_young_partial {age : Int} {h0 h1 : List ServeObs} {sv0 sv1 sv : Server} {tr : Tree} (r0 : ServeRuns age Server.start h0 sv0)
    (s : ServeStep age sv0 .restart sv1) (r : ServeRuns age sv1 h1 sv) (hr : .restart ∉ h1)
    (hf : sv1.rs.under.view tr.span.id.trace = .notFound) (hc : CausalTree tr)
    (hrep : Reports (forTrace tr.span.id.trace ((recentPart h1).filterMap called)) tr) (hy : Young age tr.span.id.trace (recentPart h1))
    (hp : ∀ e ∈ sv.rs.pending, e.1.trace ≠ tr.span.id.trace) {τ : Type} {env : WebEnv τ} {files : TemplateFiles} (hg : GoodFiles env files)
    {st : WebState τ} (hst : st.store = sv.rs.under) (ht : st.tmpls = none ∨ env.reload = true) {hdr : Header} :
    ∃ tr' tmpl, sv.rs.under.view tr.span.id.trace = .found tr' ∧ TreeEquiv tr' tr ∧ Compiled env files b!"trace.html" tmpl ∧
      ∀ st' out, AppServes env files st ⟨.get, urlToTrace tr.span.id.trace, [], hdr, []⟩ [] st' out →
        st'.store = st.store ∧
        ((∃ pg, AnsweredBy out (pageAnswer env tmpl ⟨.trace, urlToTrace tr.span.id.trace, [], env.agg.isSome⟩ (.trace pg)) ∧
            pg.trace = tr' ∧ IsExport env.nils tr' pg.json) ∨
          ∃ msg, AnsweredBy out (.failed msg) ∧ ∃ sp ∈ tr'.spans, ¬ EventsReadable env.view.reg sp) := by
  obtain ⟨rs, q1, q2, q3, q4, q5⟩ := serve_as_recent_partial r0 s r hr
  obtain ⟨tr', hv, he⟩ := young_whole_partial q1 hc hrep hy (by rw [q3]; exact hp)
  have hv' : sv.rs.under.view tr.span.id.trace = .found tr' := by rw [q5 _ (.inl hf)]; exact hv
  obtain ⟨tmpl, h1, h2, -⟩ := found_on_page hg ht (hdr := hdr) (by rw [hst]; exact hv')
  exact ⟨tr', tmpl, hv', he, h1, h2⟩

/-- A program of two spans: the child is collected when it ends, before the root. -/
def slowTree : Tree := .node ⟨⟨1, 1, 0⟩, []⟩ [.node ⟨⟨1, 3, 1⟩, [⟨b!"Name", some b!"query"⟩]⟩ []]

theorem slowTree_ok : CausalTree slowTree where
  root := ⟨1, 1, rfl⟩
  derived := by
    intro e he
    have : e ∈ [((⟨⟨1, 1, 0⟩, []⟩ : Span), (⟨⟨1, 3, 1⟩, [⟨b!"Name", some b!"query"⟩]⟩ : Span))] := he
    simp only [List.mem_singleton] at this
    subst this
    exact ⟨3, rfl⟩
  distinct := by decide
  nonzero := by decide

/-- The child is collected at time 0, a span of another trace at time 100, which evicts the trace, and the root at time 101. -/
def slowHistory : List RecentObs :=
  [.call ⟨0, 0, 0, 0⟩ ⟨1, 3, 1⟩ [⟨b!"Name", some b!"query"⟩] [], .stored ⟨1, 3, 1⟩ [⟨b!"Name", some b!"query"⟩],
   .call ⟨100, 100, 100, 100⟩ ⟨2, 2, 0⟩ [] [1], .stored ⟨2, 2, 0⟩ [], .deleted [1], .call ⟨101, 101, 101, 101⟩ ⟨1, 1, 0⟩ [] [],
   .stored ⟨1, 1, 0⟩ []]

theorem slowHistory_runs : ∃ rs, RecentRuns 10 RecentStore.new slowHistory rs ∧ rs.pending = [] ∧ rs.jobs = [] ∧
    rs.under.view 1 = .found (.node ⟨⟨1, 1, 0⟩, []⟩ []) := by
  have e0 : ((MemStore.new.collect ⟨1, 3, 1⟩ [⟨b!"Name", some b!"query"⟩]).bind fun m => (m.collect ⟨2, 2, 0⟩ []).bind fun m =>
      ((m.delete [1]).collect ⟨1, 1, 0⟩ []).map fun m => m.view 1) = some (.found (.node ⟨⟨1, 1, 0⟩, []⟩ [])) := by decide_cbv
  cases e1 : MemStore.new.collect ⟨1, 3, 1⟩ [⟨b!"Name", some b!"query"⟩] with
  | none => rw [e1] at e0; cases e0
  | some m1 =>
    rw [e1, Option.bind_some] at e0
    cases e2 : m1.collect ⟨2, 2, 0⟩ [] with
    | none => rw [e2] at e0; cases e0
    | some m2 =>
      rw [e2, Option.bind_some] at e0
      cases e3 : (m2.delete [1]).collect ⟨1, 1, 0⟩ [] with
      | none => rw [e3] at e0; cases e0
      | some m3 =>
        rw [e3, Option.map_some, Option.some.injEq] at e0
        refine ⟨_, RecentRuns.snoc (h := [_, _, _, _, _, _]) (RecentRuns.snoc (h := [_, _, _, _, _]) (RecentRuns.snoc (h := [_, _, _, _])
          (RecentRuns.snoc (h := [_, _, _]) (RecentRuns.snoc (h := [_, _]) (RecentRuns.snoc (h := [_])
          (RecentRuns.snoc (h := []) .nil
            (RecentStep.evict (evicted := []) (by decide) (by decide)))
            (RecentStep.store (a := []) (b := []) rfl e1))
            (RecentStep.evict (evicted := [1])
            (show RecentStore.sinceEvicted (some 0) 100 > 10 by decide)
            (show [1].Perm (RecentStore.expired (RecentStore.note [(1, 0)] 2 100) (100 - 10)) by decide)))
            (RecentStep.store (a := []) (b := []) rfl e2))
            (RecentStep.delete (a := []) (b := []) rfl))
            (RecentStep.keep (show ¬ RecentStore.sinceEvicted (some 100) 101 > 10 by decide)))
            (RecentStep.store (a := []) (b := []) rfl e3), rfl, rfl, e0⟩

/-- **C152** is false: the root of a trace that lasts longer than `MinEvictAge` is shown without its children. -/
theorem whole_or_gone_false : ¬ WholeOrGone := by
  intro hf
  obtain ⟨rs, r, hp, hj, hv⟩ := slowHistory_runs
  rcases hf 10 slowHistory rs slowTree r (by simp [slowHistory, Spec.Monotone]) hp hj slowTree_ok
    ⟨by decide, by decide, by decide⟩ with h | ⟨tr', h, he⟩
  · have h : rs.under.view 1 = .notFound := h
    rw [hv] at h
    cases h
  · have h : rs.under.view 1 = .found tr' := h
    rw [hv] at h
    injection h with h
    subst h
    unfold slowTree at he
    cases he with
    | node _ _ hf => cases hf

/-- The same program, when the root is collected in time, and the trace is evicted later. -/
def quickStart : List RecentObs :=
  [.call ⟨0, 0, 0, 0⟩ ⟨1, 3, 1⟩ [⟨b!"Name", some b!"query"⟩] [], .stored ⟨1, 3, 1⟩ [⟨b!"Name", some b!"query"⟩],
   .call ⟨5, 5, 5, 5⟩ ⟨1, 1, 0⟩ [] [], .stored ⟨1, 1, 0⟩ []]

def quickRest : List RecentObs := [.call ⟨100, 100, 100, 100⟩ ⟨2, 2, 0⟩ [] [1], .stored ⟨2, 2, 0⟩ []]

theorem quick_young : Young 10 1 quickStart := by
  intro h1 c id as ev h2 e hid hn c' id' as' ev' hm hev
  exfalso
  have : RecentObs.call c' id' as' ev' ∈ quickStart := by rw [e]; exact List.mem_append_right _ hm
  simp [quickStart] at this
  rcases this with ⟨-, -, -, rfl⟩ | ⟨-, -, -, rfl⟩ <;> exact hev rfl

/-- The hypotheses of `young_whole_partial` and `whole_or_gone_partial` are met, before the eviction, when it has been decided, and when it
has been carried out. -/
example : ∃ rs rs' rs'', RecentRuns 10 RecentStore.new quickStart rs ∧ RecentRuns 10 RecentStore.new (quickStart ++ quickRest) rs' ∧
    RecentRuns 10 RecentStore.new (quickStart ++ (quickRest ++ [.deleted [1]])) rs'' ∧
    (∀ e ∈ rs.pending, e.1.trace ≠ slowTree.span.id.trace) ∧ Young 10 slowTree.span.id.trace quickStart ∧
    Reports (forTrace slowTree.span.id.trace (quickStart.filterMap called)) slowTree ∧
    (forTrace slowTree.span.id.trace (quickStart.filterMap called)).length =
      (forTrace slowTree.span.id.trace (quickStart.filterMap passedOn)).length ∧
    forTrace slowTree.span.id.trace ((quickRest ++ [RecentObs.deleted [1]]).filterMap called) = [] := by
  obtain ⟨m1, e1, r1⟩ := run_collect (uops := []) (ms := MemStore.new) rfl ⟨1, 3, 1⟩ [⟨b!"Name", some b!"query"⟩]
  obtain ⟨m2, e2, r2⟩ := run_collect r1 ⟨1, 1, 0⟩ []
  obtain ⟨m3, e3, -⟩ := run_collect r2 ⟨2, 2, 0⟩ []
  have q : RecentRuns 10 RecentStore.new quickStart _ :=
    RecentRuns.snoc (h := [_, _, _]) (RecentRuns.snoc (h := [_, _]) (RecentRuns.snoc (h := [_])
      (RecentRuns.snoc (h := []) .nil
        (RecentStep.evict (evicted := []) (by decide) (by decide)))
        (RecentStep.store (a := []) (b := []) rfl e1))
        (RecentStep.keep (show ¬ RecentStore.sinceEvicted (some 0) 5 > 10 by decide)))
        (RecentStep.store (a := []) (b := []) rfl e2)
  have q' := (q.snoc (RecentStep.evict (c := ⟨100, 100, 100, 100⟩) (id := ⟨2, 2, 0⟩) (as := []) (evicted := [1])
    (show RecentStore.sinceEvicted (some 0) 100 > 10 by decide)
    (show [1].Perm (RecentStore.expired (RecentStore.note [(1, 0)] 2 100) (100 - 10)) by decide))).snoc
    (RecentStep.store (a := []) (b := []) rfl e3)
  have q'' := q'.snoc (RecentStep.delete (a := []) (b := []) rfl)
  exact ⟨_, _, _, q, q', q'', by simp, quick_young, ⟨by decide, by decide, by decide⟩, by decide, by decide⟩

/-- Two recorders, with three events, have been finished while the trace is young.  All hypotheses of `young_events_partial` are met. -/
example : ∃ (reg : Registry) (h : List RecentObs) (rs : RecentStore) (tr : Tree) (recs : SpanID → Recording),
    registerAll libraryEvents [] = some reg ∧ RecentRuns 10 RecentStore.new h rs ∧ CausalTree tr ∧ tr.spans.length = 2 ∧
    (∀ sp ∈ tr.spans, (recs sp.id).Proper sp.id ∧ (recs sp.id).events ≠ []) ∧
    (forTrace tr.span.id.trace (h.filterMap called)).Perm (tr.spans.flatMap fun sp => (recs sp.id).calls sp.id) ∧
    Young 10 tr.span.id.trace h ∧ ∀ e ∈ rs.pending, e.1.trace ≠ tr.span.id.trace := by
  let root : List (EventType × GVal) :=
    [(spanNameEvent, .struct [.scalar (.string b!"home")]), (msgEvent, .struct [.scalar (.string b!"hello")])]
  let leaf : List (EventType × GVal) := [(spanNameEvent, .struct [.scalar (.string b!"query")])]
  let recs : SpanID → Recording := fun id => sampleRecording (if id.parent = 0 then root else leaf)
  let tr : Tree := .node ⟨⟨1, 5, 0⟩, []⟩ [.node ⟨⟨1, 6, 5⟩, []⟩ []]
  have h5 : (recs ⟨1, 5, 0⟩).Proper ⟨1, 5, 0⟩ := sampleRecording_proper root _
    (by intro e he; simp only [root, List.mem_cons, List.not_mem_nil, or_false] at he; rcases he with rfl | rfl <;>
      exact ⟨by simp [libraryEvents], by decide⟩) (by decide) (by decide)
  have h6 : (recs ⟨1, 6, 5⟩).Proper ⟨1, 6, 5⟩ := sampleRecording_proper leaf _
    (by intro e he; rw [List.mem_singleton.1 he]; exact ⟨by simp [libraryEvents], by decide⟩) (by decide) (by decide)
  obtain ⟨m1, e1, r1⟩ := run_collect (uops := []) (ms := MemStore.new) rfl ⟨1, 6, 5⟩ ((recs ⟨1, 6, 5⟩).before.flatMap eventAnnotations)
  obtain ⟨m2, e2, -⟩ := run_collect r1 ⟨1, 5, 0⟩ ((recs ⟨1, 5, 0⟩).before.flatMap eventAnnotations)
  have q : RecentRuns 10 RecentStore.new
      [.call ⟨0, 0, 0, 0⟩ ⟨1, 6, 5⟩ ((recs ⟨1, 6, 5⟩).before.flatMap eventAnnotations) [],
       .stored ⟨1, 6, 5⟩ ((recs ⟨1, 6, 5⟩).before.flatMap eventAnnotations),
       .call ⟨5, 5, 5, 5⟩ ⟨1, 5, 0⟩ ((recs ⟨1, 5, 0⟩).before.flatMap eventAnnotations) [],
       .stored ⟨1, 5, 0⟩ ((recs ⟨1, 5, 0⟩).before.flatMap eventAnnotations)] _ :=
    RecentRuns.snoc (h := [_, _, _]) (RecentRuns.snoc (h := [_, _]) (RecentRuns.snoc (h := [_])
      (RecentRuns.snoc (h := []) .nil
        (RecentStep.evict (age := 10) (c := ⟨0, 0, 0, 0⟩) (evicted := [])
          (show RecentStore.sinceEvicted none 0 > 10 by decide)
          (show [].Perm (RecentStore.expired (RecentStore.note [] 1 0) (0 - 10)) by decide)))
        (RecentStep.store (a := []) (b := []) rfl e1))
        (RecentStep.keep (c := ⟨5, 5, 5, 5⟩) (show ¬ RecentStore.sinceEvicted (some 0) 5 > 10 by decide)))
        (RecentStep.store (a := []) (b := []) rfl e2)
  refine ⟨_, _, _, tr, recs, rfl, q, ⟨⟨1, 5, rfl⟩, ?_, by decide, by decide⟩, by decide, ?_, ?_, ?_, by simp⟩
  · intro e he
    rw [List.mem_singleton.1 he]
    exact ⟨6, rfl⟩
  · intro sp hsp
    simp only [tr, Tree.spans, Tree.spansList, List.append_nil, List.mem_cons, List.not_mem_nil, or_false] at hsp
    rcases hsp with rfl | rfl
    · exact ⟨h5, by simp [recs, sampleRecording, root]⟩
    · exact ⟨h6, by simp [recs, sampleRecording, leaf]⟩
  · simp only [tr, Tree.spans, Tree.spansList, List.append_nil, List.flatMap_cons, List.flatMap_nil, proper_calls h5, proper_calls h6]
    exact List.Perm.swap _ _ _
  · intro h1 c id as ev h2 e hid hn c' id' as' ev' hm hev
    exfalso
    have := List.mem_append_right h1 hm
    rw [← e] at this
    simp at this
    rcases this with ⟨-, -, -, rfl⟩ | ⟨-, -, -, rfl⟩ <;> exact hev rfl

/-- The server of `Properties/Serve`, which was started with a file with trace 1 and then received a span of trace 2, meets the hypotheses
of `serve_young_partial` for trace 2. -/
example : ∃ (sv0 sv1 sv : Server) (tr' : Tree), ServeRuns 10 Server.start (serveHistory.take 3) sv0 ∧ ServeStep 10 sv0 .restart sv1 ∧
    ServeRuns 10 sv1 (serveHistory.drop 4) sv ∧ TreeEquiv tr' (.node ⟨⟨2, 2, 0⟩, []⟩ []) ∧
    ∀ st' out, AppServes (sampleWeb false) namedFiles ⟨sv.rs.under, none⟩ (getRequest (urlToTrace 2)) [] st' out →
      (AnsweredBy out (.html b!"/trace.html/layout.html")) ∨ ∃ sp ∈ tr'.spans, ¬ EventsReadable sampleEnv.reg sp := by
  obtain ⟨sv0, sv1, sv, r0, s, r, hp, -, -, hf, -⟩ := serveHistory_runs
  obtain ⟨tr', tmpl, e1, e2, e3, e4⟩ := serve_young_partial (tr := .node ⟨⟨2, 2, 0⟩, []⟩ []) r0 s r (by decide) hf
    ⟨⟨2, 2, rfl⟩, (by intro e he; cases he), by decide, by decide⟩ ⟨by decide, by decide, by decide⟩ (by
      intro h1 c id as ev h2 e hid hn c' id' as' ev' hm hev
      exfalso
      have := List.mem_append_right h1 hm
      rw [← e] at this
      simp [recentPart, serveHistory] at this
      exact hev this.2.2.2) (by rw [hp]; simp) (namedFiles_good false) (st := ⟨sv.rs.under, none⟩) rfl (.inl rfl) (hdr := [])
  refine ⟨sv0, sv1, sv, tr', r0, s, r, e2, ?_⟩
  intro st' out h
  rcases (e4 st' out h).2 with ⟨pg, h1, -⟩ | ⟨msg, -, h2⟩
  · have : tmpl = [b!"/trace.html", b!"/layout.html"] := compiled_unique e3 ⟨_, _, rfl, rfl, rfl⟩
    subst this
    exact .inl h1
  · exact .inr h2

end Appdash.RecentTrace
