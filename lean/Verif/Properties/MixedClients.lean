import Verif.Proofs.MixedEvents

/-!
# C129: programs whose processes are written in Go and in Python
-/

namespace Appdash
open Spec Py

/-- **C129**.  The spans of a trace are collected in any number of processes, some of them in Go and some in Python, over a socket or with
Twisted.  When the server has handled everything, its store shows the tree of the program's spans with all their annotations.  If all
annotations of a span were collected in one process, over one connection, then they are shown in the order in which they were
collected. -/
theorem mixed_program_shown {clients : List Client} (hd : ∀ c ∈ clients, c.Done) {tr : Tree} (hc : CausalTree tr)
    (hr : Reports (forTrace tr.span.id.trace (clients.flatMap Client.collected)) tr) {s : ServerState}
    (hs : MixedServerDone s clients tr.span.id.trace) :
    ∃ tr', s.store.view tr.span.id.trace = .found tr' ∧ TreeEquiv tr' tr ∧
      ∀ u ∈ tr.spans, ∀ before c after, clients = before ++ c :: after → c.streams.length ≤ 1 →
        (∀ c' ∈ before ++ after, u.id ∉ c'.collected.map Prod.fst) →
        ∃ v ∈ tr'.spans, v.id = u.id ∧ v.annotations = c.collected.flatMap fun e => if e.1 = u.id then e.2 else [] := by
  have hlive := mixed_live hs hd
  have hstore := server_calls_stored hs.reach
  have hR : Reports (live tr.span.id.trace (s.calls.map fun c => StoreOp.collect c.2.1 c.2.2)) tr :=
    ⟨fun e he => hr.known e (hlive.subset he), fun sp hsp => by
      obtain ⟨e, he, ee⟩ := hr.complete sp hsp
      exact ⟨e, hlive.symm.subset he, ee⟩, fun sp hsp => (hlive.flatMap_right _).trans (hr.annotations sp hsp)⟩
  obtain ⟨tr', hv, he⟩ := causal_view hstore hc hR
  obtain ⟨tr2, hv2, he2, ha2⟩ := annotated_view hstore hc
    (fun id => annotationsOf (live tr.span.id.trace (s.calls.map fun c => StoreOp.collect c.2.1 c.2.2)) id.span) hR.known hR.complete
    fun _ _ => rfl
  have : tr2 = tr' := by rw [hv] at hv2; injection hv2 with h; exact h.symm
  subst this
  refine ⟨tr2, hv, he, ?_⟩
  intro u hu before c after hcl h1 hno
  have : u.id ∈ tr2.spans.map Span.id := (treeEquiv_ids he).mem_iff.2 (List.mem_map_of_mem hu)
  obtain ⟨v, hv', e⟩ := List.mem_map.1 this
  refine ⟨v, hv', e, ?_⟩
  rw [(ha2 v hv').2]
  have hcalls : ∀ e ∈ s.calls.map Prod.snd, e.1.trace = tr.span.id.trace → ∃ v ∈ tr.spans, e.1 = v.id := by
    intro e he ht
    refine hR.known e ?_
    rw [server_live]
    exact List.mem_filter.2 ⟨he, by simpa using ht⟩
  rw [server_live, e, annotationsOf_wholeID hc hu _ hcalls, mixed_order hs hd hcl h1 (hc.trace u hu) hno]
  induction c.collected with
  | nil => rfl
  | cons d L ih =>
    rw [Chunked.annotationsOf_cons, List.flatMap_cons, ih]

/-- **C129** (events).  A span that carries events of the Python client, each of a different kind and not both a message and a log, is read
by Go as these events, in this order, in whatever order Python's dictionaries yield the fields. -/
theorem python_events_read {reg : Registry} (hreg : registerAll libraryEvents [] = some reg) {evs : List Simple} {anns : List (List Ann)}
    (hm : List.Forall₂ (fun e as => Py.Marshals e.py as) evs anns) (hok : ∀ e ∈ evs, e.Ok) (hd : evs.Pairwise fun e f => e.go.1 ≠ f.go.1)
    (hml : ¬ ((∃ e ∈ evs, e.go.1 = b!"msg") ∧ ∃ e ∈ evs, e.go.1 = b!"log")) :
    unmarshalEvents reg (anns.flatten.map Ann.go) = some (evs.map Simple.go, none) := by
  have key : ∀ (evs : List Simple) (anns : List (List Ann)), List.Forall₂ (fun e as => Py.Marshals e.py as) evs anns → (∀ e ∈ evs, e.Ok) →
      (evs.Pairwise fun e f => e.go.1 ≠ f.go.1) → ¬ ((∃ e ∈ evs, e.go.1 = b!"msg") ∧ ∃ e ∈ evs, e.go.1 = b!"log") →
      ∀ (before : List Annotation) (out : List (Bytes × GVal)),
        unmarshalLoop reg (before ++ anns.flatten.map Ann.go) (schemas (anns.flatten.map Ann.go)) out = some (out ++ evs.map Simple.go, none) := by
    intro evs anns hm
    induction hm with
    | nil => intro _ _ _ before out; simp [schemas, unmarshalLoop]
    | @cons e own evs anns h1 h2 ih =>
      intro hok hd hml before out
      obtain ⟨hd1, hd2⟩ := List.pairwise_cons.1 hd
      have hrest : ∀ a ∈ anns.flatten.map Ann.go, a.key ∉ e.keys := by
        intro a ha hk
        rw [List.map_flatten] at ha
        obtain ⟨as, has, haa⟩ := List.mem_flatten.1 ha
        obtain ⟨own', hown', rfl⟩ := List.mem_map.1 has
        obtain ⟨i, hi⟩ := List.getElem?_of_mem hown'
        have : ∃ f ∈ evs, Py.Marshals f.py own' := by
          clear ih hd hd1 hd2 hml hok ha has haa
          induction h2 generalizing i with
          | nil => cases hown'
          | cons hx hy ih2 =>
            cases i with
            | zero => simp only [List.getElem?_cons_zero, Option.some.injEq] at hi; exact ⟨_, by simp, hi ▸ hx⟩
            | succ i =>
              rw [List.getElem?_cons_succ] at hi
              obtain ⟨f, hf, hfm⟩ := ih2 (List.mem_of_getElem? hi) i hi
              exact ⟨f, List.mem_cons_of_mem _ hf, hfm⟩
        obtain ⟨f, hf, hfm⟩ := this
        rcases Simple.own_keys hfm haa with h | h
        · refine Simple.keys_disjoint (hd1 f hf) ?_ ?_ a.key hk h
          · rintro ⟨x, y⟩; exact hml ⟨⟨e, by simp, x⟩, f, by simp [hf], y⟩
          · rintro ⟨x, y⟩; exact hml ⟨⟨f, by simp [hf], y⟩, e, by simp, x⟩
        · rw [e.keys_plain _ hk] at h; cases h
      rw [List.flatten_cons, List.map_append, schemas_append, Simple.schemas_own h1]
      obtain ⟨E, hE, hr⟩ := Simple.read hreg (hok e (by simp)) h1 before _ hrest
      rw [List.singleton_append, unmarshalLoop, hE]
      simp only
      rw [← List.append_assoc, hr]
      simp only
      have := ih (fun e he => hok e (List.mem_cons_of_mem _ he)) hd2 (by
        rintro ⟨⟨x, hx, hx'⟩, y, hy, hy'⟩
        exact hml ⟨⟨x, by simp [hx], hx'⟩, y, by simp [hy], hy'⟩) (before ++ own.map Ann.go) (out ++ [e.go])
      rw [this]
      simp
  have := key evs anns hm hok hd hml [] []
  simpa [unmarshalEvents] using this

/-- **C129** (events).  In the situation of `mixed_program_shown`, the events that a Python process collected for a span over its socket, and
that no other process collected anything for, are what Go reads from the span in the store. -/
theorem mixed_events_shown {reg : Registry} (hreg : registerAll libraryEvents [] = some reg) {clients : List Client} (hd : ∀ c ∈ clients, c.Done)
    {tr : Tree} (hc : CausalTree tr) (hr : Reports (forTrace tr.span.id.trace (clients.flatMap Client.collected)) tr) {s : ServerState}
    (hs : MixedServerDone s clients tr.span.id.trace) {u : Span} (hu : u ∈ tr.spans) {before after : List Client} {ops : List SockOp}
    (hcl : clients = before ++ .socket ops :: after) (hno : ∀ c' ∈ before ++ after, u.id ∉ c'.collected.map Prod.fst)
    {evs : List Simple} (hm : List.Forall₂ (fun e as => Py.Marshals e.py as) evs
      (((returned (Sock.run {} ops)).filter fun p => p.1 = u.id).map Prod.snd))
    (hok : ∀ e ∈ evs, e.Ok) (hdist : evs.Pairwise fun e f => e.go.1 ≠ f.go.1)
    (hml : ¬ ((∃ e ∈ evs, e.go.1 = b!"msg") ∧ ∃ e ∈ evs, e.go.1 = b!"log")) :
    ∃ tr', s.store.view tr.span.id.trace = .found tr' ∧ TreeEquiv tr' tr ∧
      ∃ v ∈ tr'.spans, v.id = u.id ∧ unmarshalEvents reg v.annotations = some (evs.map Simple.go, none) := by
  obtain ⟨tr', h1, h2, h3⟩ := mixed_program_shown hd hc hr hs
  obtain ⟨v, hv, hid, ha⟩ := h3 u hu before _ after hcl (by simp [Client.streams]) hno
  refine ⟨tr', h1, h2, v, hv, hid, ?_⟩
  rw [ha, ← python_events_read hreg hm hok hdist hml]
  congr 1
  simp only [Client.collected]
  generalize returned (Sock.run {} ops) = ps
  clear hm hcl ha
  induction ps with
  | nil => rfl
  | cons p ps ih =>
    rw [List.map_cons, List.flatMap_cons, ih, List.filter_cons]
    by_cases hp : p.1 = u.id
    · simp [goCall, hp]
    · simp [goCall, hp]

/-! ## A program of three processes -/

/-- The Python process: it names its span and reports a query, in two calls; the socket takes the second packet in two parts. -/
def querySocket : List SockOp :=
  [.collect 0 (⟨1, 3, 2⟩, [⟨b!"Name", b!"SQL Query"⟩, ⟨b!"_schema:name", []⟩]), .send 0 1000,
   .collect 0 (⟨1, 3, 2⟩, [⟨b!"Tag", b!"foobar"⟩, ⟨b!"SQL", b!"SELECT 1"⟩, ⟨b!"ClientRecv", b!"2016-07-01T10:20:31+00:00"⟩,
     ⟨b!"ClientSend", b!"2016-07-01T10:20:30+00:00"⟩, ⟨b!"_schema:SQL", []⟩]), .send 0 7, .send 0 1000]

/-- Its events. -/
def queryEvents : List Simple :=
  [.name b!"SQL Query", .sql b!"SELECT 1" b!"foobar" b!"2016-07-01T10:20:30+00:00" b!"2016-07-01T10:20:31+00:00"
    ⟨2016, 7, 1, 10, 20, 30, 0, 0⟩ ⟨2016, 7, 1, 10, 20, 31, 0, 0⟩]

/-- The Twisted process. -/
def helperTwisted : List TwOp := [.connect 0, .collect 0 (⟨1, 4, 3⟩, [⟨b!"Msg", b!"hi"⟩, ⟨b!"_schema:msg", []⟩]), .flush 0]

/-- What the Go process collects. -/
def mixedRequestCalls : List Delivery := [(⟨1, 2, 0⟩, [⟨b!"Name", some b!"Request"⟩, ⟨b!"_schema:name", none⟩])]

/-- The tree of the program. -/
def mixedTree : Tree :=
  .node ⟨⟨1, 2, 0⟩, [⟨b!"Name", some b!"Request"⟩, ⟨b!"_schema:name", none⟩]⟩
    [.node ⟨⟨1, 3, 2⟩, (querySocketAnnotations).map Ann.go⟩ [.node ⟨⟨1, 4, 3⟩, [⟨b!"Msg", some b!"hi"⟩, ⟨b!"_schema:msg", some []⟩]⟩ []]]
where
  querySocketAnnotations : List Ann :=
    [⟨b!"Name", b!"SQL Query"⟩, ⟨b!"_schema:name", []⟩, ⟨b!"Tag", b!"foobar"⟩, ⟨b!"SQL", b!"SELECT 1"⟩, ⟨b!"ClientRecv", b!"2016-07-01T10:20:31+00:00"⟩,
     ⟨b!"ClientSend", b!"2016-07-01T10:20:30+00:00"⟩, ⟨b!"_schema:SQL", []⟩]

theorem mixedTree_ok : CausalTree mixedTree where
  root := ⟨1, 2, rfl⟩
  derived := by
    intro e he
    simp only [mixedTree, Tree.edges, Tree.edgesList, Tree.span, List.mem_cons, List.not_mem_nil, or_false, List.append_nil, List.nil_append,
      List.map_cons, List.map_nil, List.mem_append, List.cons_append] at he
    rcases he with rfl | rfl
    · exact ⟨3, rfl⟩
    · exact ⟨4, rfl⟩
  distinct := by decide
  nonzero := by decide

/-- All hypotheses of `mixed_events_shown` are met, and the server has another client that sends garbage. -/
theorem mixed_program_exists : ∃ (a : Mutex.Config remoteMachine) (s : ServerState),
    (∀ c ∈ [.go a, .socket querySocket, .twisted helperTwisted], Client.Done c) ∧
    Reports (forTrace mixedTree.span.id.trace ([Client.go a, .socket querySocket, .twisted helperTwisted].flatMap Client.collected)) mixedTree ∧
    MixedServerDone s [.go a, .socket querySocket, .twisted helperTwisted] mixedTree.span.id.trace ∧ s.conns.length = 4 ∧
    (∀ c' ∈ [.go a] ++ [.twisted helperTwisted], (⟨1, 3, 2⟩ : SpanID) ∉ (Client.collected c').map Prod.fst) ∧
    List.Forall₂ (fun e as => Py.Marshals (Simple.py e) as) queryEvents
      (((returned (Sock.run {} querySocket)).filter fun p => p.1 = ⟨1, 3, 2⟩).map Prod.snd) ∧
    (∀ e ∈ queryEvents, e.Ok) ∧ (queryEvents.Pairwise fun e f => e.go.1 ≠ f.go.1) := by
  obtain ⟨a, ha1, ha2, ha3⟩ := remote_can_send mixedRequestCalls (by decide +kernel)
  have hA := ha3 (by decide)
  have lenA : a.shared.conns.length = 1 := by simpa using congrArg List.length hA
  obtain ⟨s, s1, s2, s3, s4⟩ := server_can_serve (([Client.go a, .socket querySocket, .twisted helperTwisted].flatMap Client.streams) ++ [[2, 7, 7]])
  have hret : returned (Sock.run {} querySocket) =
      [(⟨1, 3, 2⟩, [⟨b!"Name", b!"SQL Query"⟩, ⟨b!"_schema:name", []⟩]),
       (⟨1, 3, 2⟩, [⟨b!"Tag", b!"foobar"⟩, ⟨b!"SQL", b!"SELECT 1"⟩, ⟨b!"ClientRecv", b!"2016-07-01T10:20:31+00:00"⟩,
         ⟨b!"ClientSend", b!"2016-07-01T10:20:30+00:00"⟩, ⟨b!"_schema:SQL", []⟩])] := by decide +kernel
  have htw : Py.collectedBy (twEnd helperTwisted) 0 = [(⟨1, 4, 3⟩, [⟨b!"Msg", b!"hi"⟩, ⟨b!"_schema:msg", []⟩])] := by decide +kernel
  have hcol : [Client.go a, .socket querySocket, .twisted helperTwisted].flatMap Client.collected =
      mixedRequestCalls ++ [(⟨1, 3, 2⟩, [⟨b!"Name", some b!"SQL Query"⟩, ⟨b!"_schema:name", some []⟩]),
       (⟨1, 3, 2⟩, [⟨b!"Tag", some b!"foobar"⟩, ⟨b!"SQL", some b!"SELECT 1"⟩, ⟨b!"ClientRecv", some b!"2016-07-01T10:20:31+00:00"⟩,
         ⟨b!"ClientSend", some b!"2016-07-01T10:20:30+00:00"⟩, ⟨b!"_schema:SQL", some []⟩]),
       (⟨1, 4, 3⟩, [⟨b!"Msg", some b!"hi"⟩, ⟨b!"_schema:msg", some []⟩])] := by
    simp only [List.flatMap_cons, List.flatMap_nil, Client.collected, ha2, hret, htw]
    rfl
  refine ⟨a, s, ?_, ?_, ⟨s1, s2, s3, [[2, 7, 7]], ?_, ?_, ?_⟩, ?_, ?_, ?_, ?_, ?_⟩
  · intro c hc
    simp only [List.mem_cons, List.not_mem_nil, or_false] at hc
    rcases hc with rfl | rfl | rfl
    · exact ha1
    · refine ⟨orderly_one_thread 0 _ (by decide) (by decide) {} (by simp) (by simp) (by simp), ?_⟩
      intro t p hp
      simp only [querySocket, List.mem_cons, List.not_mem_nil, or_false, SockOp.collect.injEq, reduceCtorEq, false_or] at hp
      rcases hp with ⟨-, rfl⟩ | ⟨-, rfl⟩ <;> decide +kernel
    · refine ⟨by decide, ⟨by simp, by simp, ?_, trivial⟩, by decide +kernel, by rw [htw]; decide +kernel⟩
      rintro f ⟨⟩
      exact ⟨⟨none, some 0⟩, 0, ⟨0, true, []⟩, by decide⟩
  · rw [hcol]
    exact ⟨by decide, by decide, by decide +kernel⟩
  · rw [s4]
  · intro b hb
    rw [List.mem_singleton.1 hb]
    decide
  · intro b hb d hd
    rw [List.mem_singleton.1 hb, show packetsOf [2, 7, 7] = [] by decide] at hd
    cases hd
  · have := congrArg List.length s4
    have h2 : (twEnd helperTwisted).protos.length = 1 := by decide +kernel
    simp only [List.length_map, List.length_append, List.length_cons, List.length_nil, List.flatMap_cons, List.flatMap_nil, Client.streams, lenA, h2] at this
    omega
  · intro c hc
    simp only [List.singleton_append, List.mem_cons, List.not_mem_nil, or_false] at hc
    rcases hc with rfl | rfl
    · simp only [Client.collected, ha2]; decide
    · simp only [Client.collected, htw]; decide
  · rw [hret]
    refine .cons ⟨_, List.Perm.refl _, rfl⟩ (.cons ⟨[(b!"Tag", b!"foobar"), (b!"SQL", b!"SELECT 1"),
      (b!"ClientRecv", b!"2016-07-01T10:20:31+00:00"), (b!"ClientSend", b!"2016-07-01T10:20:30+00:00")], ?_, rfl⟩ .nil)
    decide +kernel
  · intro e he
    simp only [queryEvents, List.mem_cons, List.not_mem_nil, or_false] at he
    rcases he with rfl | rfl
    · trivial
    · exact ⟨sampleTime 30 (by decide), sampleTime 31 (by decide)⟩
  · decide

end Appdash
