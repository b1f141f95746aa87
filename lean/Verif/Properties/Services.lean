import Verif.Proofs.Services

/-!
# C115: a distributed program is shown as the tree of its requests
-/

namespace Appdash
open Spec

/-- **C115**.  A request without span headers reaches a traced service, whose handler calls other traced services, whose handlers call
others, and so on; handlers also record spans of their own.  If the generated IDs differ and a store has received what all the services
and clients sent to their collectors, in any order and mixed with calls for other traces, then `Trace` returns the tree of these
requests, calls and spans, and the events of each span in it show the request, the call or the recording that it stands for. -/
theorem services_shown {reg : Registry} (hreg : registerAll libraryEvents [] = some reg) {ops : List StoreOp} {ms : MemStore}
    (h : MemStore.new.run ops = some ms) {root : Handled} (hok : root.Ok)
    (hfirst : root.req.header.Lacks b!"Span-Id" ∧ root.req.header.Lacks b!"Parent-Span-Id")
    (hd : (root.tree.spans.map fun sp => sp.id.span).Nodup) (hz : ∀ sp ∈ root.tree.spans, sp.id.span ≠ 0)
    (hL : (live root.req.id.trace ops).Perm root.deliveries) :
    ∃ tr, ms.view root.req.id.trace = .found tr ∧ TreeEquiv (reannotate (fun _ => []) tr) root.tree ∧
      ∀ sp ∈ tr.spans, ∃ evs, unmarshalEvents reg sp.annotations = some (evs, none) ∧ root.Shows sp.id evs := by
  have hids := deliveries_ids hreg root hok
  have hnd : (root.deliveries.map Prod.fst).Nodup := by
    rw [hids]
    refine List.Nodup.of_map SpanID.span ?_
    rw [List.map_map]
    exact hd
  obtain ⟨f, hf⟩ := as_function hnd
  have hsok : root.req.Ok := by
    cases hok with
    | mk _ _ _ _ h1 _ _ _ _ => exact h1
  have hc : CausalTree root.tree := by
    refine ⟨?_, handled_derived root hok, hd, hz⟩
    obtain ⟨id, h1, h2, h3, h4⟩ := no_header root.req.env.src root.req.n root.req.header hfirst.1 hfirst.2
    rw [hsok.span] at h1
    rw [tree_span]
    injection h1 with h1
    injection h1 with h1
    rw [h1]
    refine ⟨id.trace, id.span, ?_⟩
    cases id
    simp only [newRootSpanID, SpanID.mk.injEq]
    exact ⟨trivial, trivial, h2⟩
  rw [← tree_span] at hL ⊢
  have hL' : (live root.tree.span.id.trace ops).Perm (root.tree.spans.map fun sp => (sp.id, f sp.id)) := by
    rw [hf, hids, List.map_map] at hL
    exact hL
  obtain ⟨tr, h1, h2, h3⟩ := recordings_view h hc f hL'
  refine ⟨tr, h1, ?_, ?_⟩
  · have := treeEquiv_reannotate (fun _ => []) h2
    rw [reannotate_twice] at this
    rwa [handled_bare] at this
  · intro sp hsp
    obtain ⟨⟨sp', hsp', hid⟩, ha⟩ := h3 sp hsp
    have hm : (sp.id, f sp.id) ∈ root.deliveries := by
      rw [hf, hids, List.map_map]
      exact List.mem_map.2 ⟨sp', hsp', by simp [hid]⟩
    rw [ha]
    exact deliveries_show hreg root hok _ hm

/-! ## A program with two services -/

/-- A request for a page. -/
def sampleReq : Request := ⟨b!"GET", b!"/", b!"shop", b!"/", b!"HTTP/1.1", b!"shop", b!"10.0.0.1", 0, 0, []⟩

/-- The first service: it generates the IDs 1 and 2 and replies with 404. -/
def frontEnv : ServerEnv := ⟨⟨[], fun _ _ => false⟩, ⟨fun _ _ => none, fun _ _ _ => []⟩, fun i => 1 + i.toUInt64, none, none,
  fun _ _ _ => some ⟨[.writeHeader 404, .write b!"no"], [], sampleReq, []⟩, true, .zero, .zero⟩

/-- The second service. -/
def backEnv : ServerEnv := ⟨⟨[], fun _ _ => false⟩, ⟨fun _ _ => none, fun _ _ _ => []⟩, fun _ => 9, none, none,
  fun _ _ _ => some ⟨[.write b!"ok"], [], sampleReq, []⟩, true, .zero, .zero⟩

/-- The client in the handler of the first service: it generates the IDs 3 and 4. -/
def middleEnv : ClientEnv := ⟨⟨1, 2, 0⟩, true, ⟨[], fun _ _ => false⟩, ⟨fun _ _ => none, fun _ _ _ => []⟩, fun i => 3 + i.toUInt64,
  fun _ _ => .ok ⟨[], [], 2, 200⟩, .zero, .zero⟩

/-- The request that the first service handled. -/
def frontReq (sout : ServerRun) : ServedReq :=
  ⟨frontEnv, 0, sampleReq, [], sout, ⟨[.writeHeader 404, .write b!"no"], [], sampleReq, []⟩, ⟨1, 2, 0⟩⟩

/-- The request that the second service handled. -/
def backReq (header : Header) (bout : ServerRun) : ServedReq :=
  ⟨backEnv, 0, sampleReq, header, bout, ⟨[.write b!"ok"], [], sampleReq, []⟩, ⟨1, 4, 2⟩⟩

/-- The call between them. -/
def middleCall (cout : ClientRun) : ClientCall := ⟨middleEnv, 0, [[]], sampleReq, cout⟩

/-- A span recorded by the first handler. -/
def ownSpan : LocalSpan := ⟨⟨1, 5, 2⟩, sampleRecording [(spanNameEvent, .struct [.scalar (.string b!"query")])]⟩

/-- The program. -/
def twoServices (sout : ServerRun) (cout : ClientRun) (bout : ServerRun) : Handled :=
  .mk (frontReq sout) [middleCall cout] [ownSpan] [.mk (backReq cout.sentHeader bout) [] [] []]

theorem two_services_ok {sout : ServerRun} (hs : Serves frontEnv 0 sampleReq [] sout) {cout : ClientRun}
    (hc : RoundTrips middleEnv 0 [[]] sampleReq cout) {bout : ServerRun} (hb : Serves backEnv 0 sampleReq cout.sentHeader bout) :
    (twoServices sout cout bout).Ok ∧ (twoServices sout cout bout).tree =
      .node ⟨⟨1, 2, 0⟩, []⟩ [.node ⟨⟨1, 3, 2⟩, []⟩ [], .node ⟨⟨1, 5, 2⟩, []⟩ [], .node ⟨⟨1, 4, 2⟩, []⟩ []] := by
  have hsent : cout.sentHeader = [(b!"Span-Id", [SpanID.toText ⟨1, 4, 2⟩])] := by
    rw [hc.2.2.1]
    rfl
  have hspan : cout.recorder.span = ⟨1, 3, 2⟩ := by
    obtain ⟨h1, h2, -⟩ := round_trip_spans middleEnv 0 [[]] sampleReq cout hc
    revert h1 h2
    generalize cout.recorder.span = i
    intro h1 h2
    cases i
    simp only [SpanID.mk.injEq]
    exact ⟨h1.trace, h2, h1.parent⟩
  have h0 : FitsInt64 0 := by unfold FitsInt64; decide
  have ht : ScalarTy.time.holds (.time .zero) = true := by decide
  have hfront : (frontReq sout).Ok :=
    ⟨hs, show getSpanID frontEnv.src 0 [] = (some ⟨1, 2, 0⟩, none) by decide, rfl, fun _ _ => rfl, ⟨ht, ht⟩, ⟨h0, h0⟩,
      show (written [.writeHeader 404, .write b!"no"]).length < 2 ^ 63 by decide,
      show ∀ c ∈ codes [.writeHeader 404, .write b!"no"], c ≠ 0 ∧ -2 ^ 63 ≤ c ∧ c < 2 ^ 63 by decide⟩
  have hback : (backReq cout.sentHeader bout).Ok := by
    refine ⟨hb, ?_, rfl, fun _ _ => rfl, ⟨ht, ht⟩, ⟨h0, h0⟩, show (written [.write b!"ok"]).length < 2 ^ 63 by decide,
      show ∀ c ∈ codes [.write b!"ok"], c ≠ 0 ∧ -2 ^ 63 ≤ c ∧ c < 2 ^ 63 by decide⟩
    show getSpanID backEnv.src 0 cout.sentHeader = (some ⟨1, 4, 2⟩, none)
    rw [hsent]
    decide
  have hcall : (middleCall cout).Ok ⟨1, 2, 0⟩ := by
    refine ⟨hc, rfl, fun _ _ => rfl, ⟨ht, ht⟩, h0, ?_, ?_, ?_⟩
    · intro resp hr
      have : cout.result = .ok ⟨[], [], 2, 200⟩ := hc.2.2.2.1
      rw [show (middleCall cout).out.result = cout.result from rfl, this] at hr
      injection hr with hr
      subst hr
      exact ⟨by unfold FitsInt64; decide, by unfold FitsInt64; decide⟩
    · intro k hk; cases hk
    · exact .nil
  have hown : ownSpan.recording.Proper ownSpan.id := sampleRecording_proper _ _
    (by intro e he; rw [List.mem_singleton.1 he]; exact ⟨by simp [libraryEvents], by decide⟩) (by decide) (by decide)
  have hok : (twoServices sout cout bout).Ok := by
    refine .mk _ _ _ _ hfront ?_ ?_ ?_ ?_
    · intro c hc; rw [List.mem_singleton.1 hc]; exact hcall
    · intro l hl; rw [List.mem_singleton.1 hl]; exact ⟨hown, 5, rfl⟩
    · intro h hh
      rw [List.mem_singleton.1 hh]
      exact .mk _ _ _ _ hback (by simp) (by simp) (by simp) (by simp)
    · intro h hh
      rw [List.mem_singleton.1 hh]
      refine ⟨middleCall cout, by simp, ?_⟩
      show Delivered cout.sentHeader cout.sentHeader
      rw [hsent]
      exact delivered_self _ (by decide) (by decide)
  refine ⟨hok, ?_⟩
  simp [twoServices, frontReq, backReq, middleCall, ownSpan, Handled.tree, Handled.trees, hspan]

theorem lacks_empty (k : Bytes) : Header.Lacks [] k := fun v h => by obtain ⟨_, _, h⟩ := h; cases h

/-- All of its deliveries are of its trace. -/
theorem two_services_trace {sout : ServerRun} {cout : ClientRun} {bout : ServerRun} (hok : (twoServices sout cout bout).Ok)
    (htree : (twoServices sout cout bout).tree =
      .node ⟨⟨1, 2, 0⟩, []⟩ [.node ⟨⟨1, 3, 2⟩, []⟩ [], .node ⟨⟨1, 5, 2⟩, []⟩ [], .node ⟨⟨1, 4, 2⟩, []⟩ []]) :
    ∀ d ∈ (twoServices sout cout bout).deliveries, d.1.trace = 1 := by
  obtain ⟨reg, hreg⟩ : ∃ reg, registerAll libraryEvents [] = some reg := ⟨_, rfl⟩
  intro d hd
  have : d.1 ∈ (twoServices sout cout bout).deliveries.map Prod.fst := List.mem_map_of_mem hd
  rw [deliveries_ids hreg _ hok, htree] at this
  simp only [Tree.spans, Tree.spansList, List.append_nil, List.cons_append, List.nil_append, List.map_cons, List.map_nil, List.mem_cons,
    List.not_mem_nil, or_false] at this
  rcases this with h | h | h | h <;> rw [h]

/-- A handled request, the call of another service and a span recorded by the handler meet the hypotheses of `services_shown`. -/
example : ∃ (root : Handled) (ops : List StoreOp) (ms : MemStore), root.Ok ∧
    root.req.header.Lacks b!"Span-Id" ∧ root.req.header.Lacks b!"Parent-Span-Id" ∧
    root.tree = .node ⟨⟨1, 2, 0⟩, []⟩ [.node ⟨⟨1, 3, 2⟩, []⟩ [], .node ⟨⟨1, 5, 2⟩, []⟩ [], .node ⟨⟨1, 4, 2⟩, []⟩ []] ∧
    (root.tree.spans.map fun sp => sp.id.span).Nodup ∧ (∀ sp ∈ root.tree.spans, sp.id.span ≠ 0) ∧
    MemStore.new.run ops = some ms ∧ (live root.req.id.trace ops).Perm root.deliveries := by
  obtain ⟨sout, hs⟩ := serves_total frontEnv 0 sampleReq []
  obtain ⟨cout, hc⟩ := round_trips_total middleEnv 0 [[]] sampleReq
  obtain ⟨bout, hb⟩ := serves_total backEnv 0 sampleReq cout.sentHeader
  obtain ⟨hok, htree⟩ := two_services_ok hs hc hb
  obtain ⟨ms, hms⟩ := collect_never_panics ((twoServices sout cout bout).deliveries.reverse.map fun e => StoreOp.collect e.1 e.2)
  refine ⟨twoServices sout cout bout, _, ms, hok, lacks_empty _, lacks_empty _, htree, by rw [htree]; decide, by rw [htree]; decide, hms, ?_⟩
  rw [live_of_collects _ _ _ rfl]
  unfold forTrace
  rw [List.filter_eq_self.2]
  · exact List.reverse_perm _
  · intro d hd
    exact decide_eq_true (two_services_trace hok htree d (List.mem_reverse.1 hd))

end Appdash
