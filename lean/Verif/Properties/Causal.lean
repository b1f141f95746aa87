import Verif.Proofs.Causal
import Verif.Proofs.Chunked
import Verif.Properties.Remote

/-!
# The causal tree is reconstructed (C74)
-/

namespace Appdash
open Spec

/-- The causal tree used in the examples: a root that caused two spans, the second of which caused a third one. -/
def sampleCausal : Tree :=
  .node ⟨⟨1, 5, 0⟩, [⟨b!"Name", some b!"root"⟩]⟩
    [.node ⟨⟨1, 6, 5⟩, []⟩ [],
     .node ⟨⟨1, 7, 5⟩, [⟨b!"k", some b!"v"⟩, ⟨b!"l", none⟩]⟩ [.node ⟨⟨1, 8, 7⟩, [⟨b!"m", some []⟩]⟩ []]]

theorem sampleCausal_ok : CausalTree sampleCausal where
  root := ⟨1, 5, rfl⟩
  derived := by
    intro e he
    have : e ∈ [(⟨⟨1, 5, 0⟩, [⟨b!"Name", some b!"root"⟩]⟩, ⟨⟨1, 6, 5⟩, []⟩),
      (⟨⟨1, 5, 0⟩, [⟨b!"Name", some b!"root"⟩]⟩, ⟨⟨1, 7, 5⟩, [⟨b!"k", some b!"v"⟩, ⟨b!"l", none⟩]⟩),
      ((⟨⟨1, 7, 5⟩, [⟨b!"k", some b!"v"⟩, ⟨b!"l", none⟩]⟩ : Span), (⟨⟨1, 8, 7⟩, [⟨b!"m", some []⟩]⟩ : Span))] := he
    simp only [List.mem_cons, List.not_mem_nil, or_false] at this
    rcases this with rfl | rfl | rfl
    · exact ⟨6, rfl⟩
    · exact ⟨7, rfl⟩
    · exact ⟨8, rfl⟩
  distinct := by decide
  nonzero := by decide

/-- **C74**.  If the calls for a trace since it was last deleted report the spans of a causal tree, in any order, any
number of calls per span and mixed with calls for other traces, then `Trace` returns that tree (up to the order of
siblings and of the annotations of a span). -/
theorem causal_tree_reconstructed {ops : List StoreOp} {ms : MemStore} (h : MemStore.new.run ops = some ms) {tr : Tree}
    (hc : CausalTree tr) (hr : Reports (live tr.span.id.trace ops) tr) :
    ∃ tr', ms.view tr.span.id.trace = .found tr' ∧ TreeEquiv tr' tr := causal_view h hc hr

/-- Eight calls, some of them for another trace or before the trace was deleted, report the sample tree. -/
def sampleReport : List StoreOp :=
  [.collect ⟨1, 9, 5⟩ [], .delete [1], .collect ⟨1, 8, 7⟩ [⟨b!"m", some []⟩], .collect ⟨2, 5, 0⟩ [],
   .collect ⟨1, 7, 5⟩ [⟨b!"l", none⟩], .collect ⟨1, 6, 5⟩ [], .collect ⟨1, 5, 0⟩ [], .collect ⟨1, 7, 5⟩ [⟨b!"k", some b!"v"⟩],
   .collect ⟨1, 5, 0⟩ [⟨b!"Name", some b!"root"⟩]]

example : Reports (live 1 sampleReport) sampleCausal where
  known := by decide
  complete := by decide
  annotations := by decide

/-- **C74** (with a chunked collector in front).  `s` is a state of a `ChunkedCollector`, reached by any interleaving
of calls, flushes and the background goroutine, in which everything accepted has been handed on and nothing was dropped.
If the accepted calls report a causal tree, then the store behind it, which has received the deliveries in any order,
returns that tree. -/
theorem causal_tree_through_chunks {cfg : Chunked.Cfg} {s : Chunked.State} (h : Chunked.Reachable cfg s)
    (hq : s.pending = []) (hf : ∀ F ∈ s.flushes, F.remaining = []) (hd : Chunked.droppedCalls s.history = [])
    {tr : Tree} (hc : CausalTree tr)
    (hr : Reports (forTrace tr.span.id.trace (Chunked.acceptedCalls s.history)) tr)
    (L : List Entry) (hL : L.Perm (Chunked.deliveredCalls s.history)) :
    ∃ ms tr', MemStore.new.run (L.map fun e => .collect e.1 e.2) = some ms ∧
      ms.view tr.span.id.trace = .found tr' ∧ TreeEquiv tr' tr := by
  obtain ⟨ms, hms, -⟩ := sim_run sim_new (L.map fun e => StoreOp.collect e.1 e.2)
  have h1 : Reports (live tr.span.id.trace (L.map fun e => StoreOp.collect e.1 e.2)) tr := by
    rw [live_of_collects _ L _ rfl]
    exact (reports_delivered h hq hf hd hc hr).perm ((hL.filter _).symm)
  obtain ⟨tr', h2, h3⟩ := causal_view hms hc h1
  exact ⟨ms, tr', hms, h2, h3⟩

/-- **C74** (end to end).  The deliveries of the `ChunkedCollector` are the calls on a `RemoteCollector` that returned
nil (`hsame`), the packets are within the size limit, and nothing arrived twice (`honce`: the servers together received
as many packets as there were calls that returned nil).  Whatever connections were opened and broke, and in whatever
order the servers of the connections pass what they received to the store, the store returns the causal tree that was
reported to the `ChunkedCollector`. -/
theorem causal_tree_end_to_end {cfg : Chunked.Cfg} {s : Chunked.State} (h : Chunked.Reachable cfg s)
    (hq : s.pending = []) (hf : ∀ F ∈ s.flushes, F.remaining = []) (hd : Chunked.droppedCalls s.history = [])
    {tr : Tree} (hc : CausalTree tr)
    (hr : Reports (forTrace tr.span.id.trace (Chunked.acceptedCalls s.history)) tr)
    {c : Mutex.Config remoteMachine} (hrc : Mutex.Reachable remoteMachine {} c) (hfree : c.holder = none)
    (hsame : (accepted c.log).Perm (Chunked.deliveredCalls s.history)) (hlim : ∀ d ∈ attempted c.log, WithinLimit d)
    (honce : (c.shared.conns.flatMap fun k => (handleConn acceptAll k.bytes).1).length = (accepted c.log).length)
    (L : List Entry) (hL : L.Perm (c.shared.conns.flatMap fun k => (handleConn acceptAll k.bytes).1)) :
    ∃ ms tr', MemStore.new.run (L.map fun e => .collect e.1 e.2) = some ms ∧
      ms.view tr.span.id.trace = .found tr' ∧ TreeEquiv tr' tr := by
  have := (accepted_arrive_partial c hrc hfree hlim).eq_of_length honce.symm
  rw [← this] at hL
  exact causal_tree_through_chunks h hq hf hd hc hr L (hL.trans hsame)

/-- **C74** (retries).  Without `honce`, packets of calls that were retried may arrive twice.  The tree is still the
causal tree, only that annotations may occur more often: the annotations `f sp.id` of each span contain those reported,
and no others. -/
theorem causal_shape_with_retries {cfg : Chunked.Cfg} {s : Chunked.State} (h : Chunked.Reachable cfg s)
    (hq : s.pending = []) (hf : ∀ F ∈ s.flushes, F.remaining = []) (hd : Chunked.droppedCalls s.history = [])
    {tr : Tree} (hc : CausalTree tr)
    (hr : Reports (forTrace tr.span.id.trace (Chunked.acceptedCalls s.history)) tr)
    {c : Mutex.Config remoteMachine} (hrc : Mutex.Reachable remoteMachine {} c) (hfree : c.holder = none)
    (hsame : (accepted c.log).Perm (Chunked.deliveredCalls s.history))
    (hall : ∀ d ∈ attempted c.log, d ∈ Chunked.deliveredCalls s.history) (hlim : ∀ d ∈ attempted c.log, WithinLimit d)
    (L : List Entry) (hL : L.Perm (c.shared.conns.flatMap fun k => (handleConn acceptAll k.bytes).1)) :
    ∃ ms tr' f, MemStore.new.run (L.map fun e => .collect e.1 e.2) = some ms ∧
      ms.view tr.span.id.trace = .found tr' ∧ TreeEquiv tr' (reannotate f tr) ∧
      ∀ sp ∈ tr.spans, (∀ a, sp.annotations.count a ≤ (f sp.id).count a) ∧ ∀ a ∈ f sp.id, a ∈ sp.annotations := by
  obtain ⟨ms, hms, -⟩ := sim_run sim_new (L.map fun e => StoreOp.collect e.1 e.2)
  have hrd := reports_delivered h hq hf hd hc hr
  have hsub := accepted_arrive_partial c hrc hfree hlim
  have hno : ∀ i op l, c.threads i ≠ .inside op l := by
    intro i op l hi
    have := (Mutex.inv_reachable hrc).1 i op l hi
    rw [hfree] at this
    cases this
  have hLd : ∀ e ∈ L, e ∈ Chunked.deliveredCalls s.history := by
    intro e he
    obtain ⟨k, hk, hek⟩ := List.mem_flatMap.1 (hL.subset he)
    have hcl : ∀ d, Called c d → d ∈ attempted c.log := by
      rintro d (hd | ⟨i, l, hi⟩)
      · exact hd
      · exact absurd hi (hno i _ l)
    have := (server_never_mixes c hrc (fun d hd => hlim d (hcl d hd)) k hk k.bytes.length acceptAll).1 e
      (by rw [List.take_length]; exact hek)
    exact hall e (hcl e this)
  have hdL : ∀ e ∈ Chunked.deliveredCalls s.history, e ∈ L := fun e he =>
    hL.symm.subset (hsub.subset (hsame.symm.subset he))
  refine ⟨ms, ?_⟩
  have hft : ∀ e, e ∈ forTrace tr.span.id.trace L ↔ e ∈ forTrace tr.span.id.trace (Chunked.deliveredCalls s.history) := by
    intro e
    simp only [forTrace, List.mem_filter]
    exact ⟨fun h => ⟨hLd e h.1, h.2⟩, fun h => ⟨hdL e h.1, h.2⟩⟩
  let f : SpanID → List Annotation := fun id => (forTrace tr.span.id.trace L).flatMap fun e => if e.1 = id then e.2 else []
  have hR : Reports (live (reannotate f tr).span.id.trace (L.map fun e => StoreOp.collect e.1 e.2)) (reannotate f tr) := by
    rw [live_of_collects _ L _ rfl, reannotate_span]
    refine ⟨?_, ?_, ?_⟩
    · intro e he
      obtain ⟨sp, hsp, ee⟩ := hrd.known e ((hft e).1 he)
      exact ⟨{ sp with annotations := f sp.id }, by rw [reannotate_spans]; exact List.mem_map_of_mem hsp, ee⟩
    · intro sp hsp
      rw [reannotate_spans] at hsp
      obtain ⟨sp', hsp', rfl⟩ := List.mem_map.1 hsp
      obtain ⟨e, he, ee⟩ := hrd.complete sp' hsp'
      exact ⟨e, (hft e).2 he, ee⟩
    · intro sp hsp
      rw [reannotate_spans] at hsp
      obtain ⟨sp', hsp', rfl⟩ := List.mem_map.1 hsp
      exact List.Perm.refl _
  obtain ⟨tr', h2, h3⟩ := causal_view hms (hc.reannotate f) hR
  rw [reannotate_span] at h2
  refine ⟨tr', f, hms, h2, h3, ?_⟩
  intro sp hsp
  have hann := hrd.annotations sp hsp
  constructor
  · intro a
    rw [← hann.count_eq]
    obtain ⟨L', hp, hs⟩ : ∃ L', L'.Perm (Chunked.deliveredCalls s.history) ∧
        List.Sublist L' (c.shared.conns.flatMap fun k => (handleConn acceptAll k.bytes).1) := ⟨_, hsame, hsub⟩
    have q1 : (forTrace tr.span.id.trace (Chunked.deliveredCalls s.history)).Perm (forTrace tr.span.id.trace L') :=
      (hp.filter _).symm
    have q2 : (forTrace tr.span.id.trace L').Sublist
        (forTrace tr.span.id.trace (c.shared.conns.flatMap fun k => (handleConn acceptAll k.bytes).1)) := hs.filter _
    have q3 : (forTrace tr.span.id.trace L).Perm
        (forTrace tr.span.id.trace (c.shared.conns.flatMap fun k => (handleConn acceptAll k.bytes).1)) := hL.filter _
    rw [(q1.flatMap_right _).count_eq]
    refine Nat.le_trans ((q2.flatMap _).count_le _) ?_
    exact Nat.le_of_eq ((q3.flatMap_right _).count_eq _).symm
  · intro a ha
    obtain ⟨e, he, hae⟩ := List.mem_flatMap.1 ha
    exact hann.subset (List.mem_flatMap.2 ⟨e, (hft e).1 he, hae⟩)

/-- The hypotheses are met by a run with two spans, in which the child is flushed after the root, the first connection
breaks in the middle of a packet, and the packet is sent again on a second one. -/
example : ∃ (cfg : Chunked.Cfg) (s : Chunked.State) (tr : Tree) (c : Mutex.Config remoteMachine),
    Chunked.Reachable cfg s ∧ s.pending = [] ∧ (∀ F ∈ s.flushes, F.remaining = []) ∧
    Chunked.droppedCalls s.history = [] ∧ CausalTree tr ∧ 2 ≤ tr.spans.length ∧
    Reports (forTrace tr.span.id.trace (Chunked.acceptedCalls s.history)) tr ∧
    Mutex.Reachable remoteMachine {} c ∧ c.holder = none ∧
    (accepted c.log).Perm (Chunked.deliveredCalls s.history) ∧ (∀ d ∈ attempted c.log, WithinLimit d) ∧
    (c.shared.conns.flatMap fun k => (handleConn acceptAll k.bytes).1).length = (accepted c.log).length := by
  have r1 := Chunked.Reachable.init.step (.collect _ (⟨1, 3, 2⟩, []) : Chunked.Step Chunked.defaultCfg _ _)
  have r2 := r1.step (.collect _ (⟨1, 2, 0⟩, []))
  have r3 := r2.step (.flush _)
  have r4 := r3.step (.send _ _ [] [] (⟨1, 2, 0⟩, []) [(⟨1, 3, 2⟩, [])] [] none rfl rfl)
  have r5 := r4.step (.send _ _ [] [] (⟨1, 3, 2⟩, []) [] [] none rfl rfl)
  obtain ⟨c, h1, h2, h3, h4, h5⟩ := broken_connection_run
  refine ⟨_, _, .node ⟨⟨1, 2, 0⟩, []⟩ [.node ⟨⟨1, 3, 2⟩, []⟩ []], c, r5, rfl, ?_, rfl, ⟨⟨1, 2, rfl⟩, ?_, by decide, by decide⟩,
    by decide, ⟨by decide, by decide, by decide⟩, h1, h2, ?_, h4, ?_⟩
  · intro F hF
    rw [List.mem_singleton.1 hF]
    rfl
  · intro e he
    rw [List.mem_singleton.1 he]
    exact ⟨3, rfl⟩
  · rw [h3]; decide
  · rw [h3, List.flatMap_def, h5]; rfl

end Appdash
