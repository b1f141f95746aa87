import Verif.Proofs.PythonTracer

/-!
# Properties C157, C158 and C159: the example programs of the Python client, and programs that use its OpenTracing recorder

The server is that of C129.  It may have any number of other clients.
-/

namespace Appdash
open Spec Py

/-! ## C157 -/

/-- **C157** (example_socket.py).  When the program has ended and the server has handled what it sent, in parts of any size, the store shows one
trace: a chain of seven spans, the first named "Request" and the others "SQL Query", each with its query and every other one with its
log. -/
theorem socket_example_shown {reg : Registry} (hreg : registerAll libraryEvents [] = some reg) {t : ID} {g : Nat → ID} {x : Nat → RoundTexts}
    {send recv log : Nat → GoTime} (ha : ∀ i < 7, StampText (x i).send (send i)) (hb : ∀ i < 7, StampText (x i).recv (recv i))
    (hc : ∀ i < 7, StampText (x i).log (log i)) (hd : ∀ i j, i < j → j < 7 → g i ≠ g j) (hz : ∀ i < 7, g i ≠ 0)
    {ps : List Packet} (hps : ExampleCalls t g x ps) {ops : List SockOp} (ho : SocketProcess ops ps) {s : ServerState}
    (hs : MixedServerDone s [.socket ops] t) :
    ShowsRounds reg t g send recv log (s.store.view t) :=
  rounds_shown hreg ha hb hc hd hz hps ho.done (by simp [Client.streams]) ho.collected hs

/-- **C157** (example_twisted.py).  The same with Twisted, however often the collector flushes. -/
theorem twisted_example_shown {reg : Registry} (hreg : registerAll libraryEvents [] = some reg) {t : ID} {g : Nat → ID} {x : Nat → RoundTexts}
    {send recv log : Nat → GoTime} (ha : ∀ i < 7, StampText (x i).send (send i)) (hb : ∀ i < 7, StampText (x i).recv (recv i))
    (hc : ∀ i < 7, StampText (x i).log (log i)) (hd : ∀ i j, i < j → j < 7 → g i ≠ g j) (hz : ∀ i < 7, g i ≠ 0)
    {ps : List Packet} (hps : ExampleCalls t g x ps) (n : Nat) {s : ServerState}
    (hs : MixedServerDone s [.twisted (exampleTwisted ps n)] t) :
    ShowsRounds reg t g send recv log (s.store.view t) := by
  have hne : ps ≠ [] := by
    obtain ⟨anns, hm, rfl⟩ := hps
    intro e
    have h0 := hm 0 (by decide)
    rw [List.flatMap_eq_nil_iff] at e
    have := e 0 (by simp)
    rw [List.map_eq_nil_iff] at this
    rw [this] at h0
    simp [exampleEvents] at h0
  exact rounds_shown hreg ha hb hc hd hz hps (twisted_done hne n) (by rw [twisted_streams hne]) (twisted_collected hne n) hs

/-! ## C158 -/

/-- **C158**.  A Python process finishes the spans `sps`, of any number of traces, with the OpenTracing recorder, which raises no exception.
When the server has handled what the process sent, the store shows for each trace the tree of its spans; every span has its name, its times
and its tags as annotations and nothing else, and Go reads the name and the times as events. -/
theorem python_tracer_shown {reg : Registry} (hreg : registerAll libraryEvents [] = some reg) {sps : List OTSpan} {rs : List (List Packet)}
    (hr : List.Forall₂ (fun sp r => Records sp (r, false)) sps rs) (hsm : ∀ sp ∈ sps, sp.sampled = true)
    (hdist : sps.Pairwise fun a b => a.id ≠ b.id) (hfit : ∀ p ∈ rs.flatten, Fits p) {ops : List SockOp} (ho : SocketProcess ops rs.flatten)
    {tr : Tree} (hc : CausalTree tr)
    (hids : ∀ id, (∃ sp ∈ tr.spans, sp.id = id) ↔ ∃ sp ∈ sps, sp.trace = tr.span.id.trace ∧ sp.id = id) {s : ServerState}
    (hs : MixedServerDone s [.socket ops] tr.span.id.trace) :
    ∃ tr', s.store.view tr.span.id.trace = .found tr' ∧ TreeEquiv (reannotate (fun _ => []) tr') (reannotate (fun _ => []) tr) ∧
      ∀ sp ∈ sps, ∀ v ∈ tr'.spans, v.id = sp.id → v.annotations.Perm sp.shown ∧
        ∀ a b, RFC3339 sp.start a → RFC3339 sp.stop b → sp.PlainTags →
          unmarshalEvents reg v.annotations = some (otEvents sp.operation a b, none) := by
  have hk : ∀ e ∈ (Client.socket ops).collected, e.1.trace = tr.span.id.trace → ∃ sp ∈ tr.spans, e.1 = sp.id := by
    intro e he ht
    rw [ho.collected] at he
    obtain ⟨p, hp, rfl⟩ := List.mem_map.1 he
    obtain ⟨r, hrm, hpr⟩ := List.mem_flatten.1 hp
    obtain ⟨sp, hsp, hrec⟩ : ∃ sp ∈ sps, Records sp (r, false) := by
      clear hids hs ho hfit hdist hp he
      induction hr with
      | nil => cases hrm
      | cons h1 h2 ih =>
        rcases List.mem_cons.1 hrm with rfl | h
        · exact ⟨_, List.mem_cons_self .., h1⟩
        · obtain ⟨sp, k1, k2⟩ := ih (fun sp h => hsm sp (List.mem_cons_of_mem _ h)) h
          exact ⟨sp, List.mem_cons_of_mem _ k1, k2⟩
    have hid : p.1 = sp.id := by
      obtain ⟨name, times, kvs, -, -, -, rfl⟩ := records_ok (hsm sp hsp) hrec
      simp only [List.mem_cons, List.mem_map] at hpr
      rcases hpr with rfl | rfl | ⟨kv, -, rfl⟩ <;> rfl
    obtain ⟨u, hu, e⟩ := (hids sp.id).2 ⟨sp, hsp, by
      have : sp.trace = p.1.trace := by rw [hid]; rfl
      rw [this]; exact ht, rfl⟩
    exact ⟨u, hu, hid.trans e.symm⟩
  have hall : ∀ sp ∈ tr.spans, ∃ e ∈ (Client.socket ops).collected, e.1 = sp.id := by
    intro u hu
    obtain ⟨sp, hsp, -, hid⟩ := (hids u.id).1 ⟨u, hu, rfl⟩
    obtain ⟨r, hrm, hrec, -⟩ := ot_group hr hsm hdist hsp
    obtain ⟨name, times, kvs, -, -, -, rfl⟩ := records_ok (hsm sp hsp) hrec
    refine ⟨goCall (sp.id, name), ?_, hid⟩
    rw [ho.collected]
    exact List.mem_map_of_mem (List.mem_flatten.2 ⟨_, hrm, List.mem_cons_self ..⟩)
  obtain ⟨tr', v1, v2, v3⟩ := one_client_shown (ho.done hfit) (by simp [Client.streams]) hc hk hall hs
  refine ⟨tr', v1, ?_, ?_⟩
  · have := treeEquiv_reannotate (fun _ => []) v2
    rwa [reannotate_twice] at this
  · intro sp hsp v hv he
    obtain ⟨r, hrm, hrec, hann⟩ := ot_group hr hsm hdist hsp
    obtain ⟨name, times, kvs, m1, m2, m3, rfl⟩ := records_ok (hsm sp hsp) hrec
    have ha : v.annotations = name.map Ann.go ++ times.map Ann.go ++ kvs.map fun kv => ⟨kv.1, some kv.2⟩ := by
      rw [(v3 v hv).2, he, ho.collected, hann]
      simp only [List.flatMap_cons, List.flatMap_map, List.append_assoc]
      congr 2
      clear hann m3 hrec hrm
      induction kvs with
      | nil => rfl
      | cons kv kvs ih => rw [List.flatMap_cons, ih]; rfl
    refine ⟨?_, fun a b h1 h2 h3 => by rw [ha]; exact ot_read hreg h3 h1 h2 m1 m2 m3⟩
    rw [ha]
    have e3 : sp.tagList.filterMap tagAnnotation = kvs.map fun kv => ⟨kv.1, some kv.2⟩ := by
      rw [m3, List.filterMap_map]
      clear ha hann m3 hrec hrm
      induction kvs with
      | nil => rfl
      | cons kv kvs ih => exact congrArg (List.cons _) ih
    rw [OTSpan.shown, e3]
    refine List.Perm.append_right _ ?_
    obtain ⟨i1, p1, rfl⟩ := m1
    obtain ⟨i2, p2, rfl⟩ := m2
    have q1 := (p1.map fun kv => (⟨kv.1, some kv.2⟩ : Annotation))
    have q2 := (p2.map fun kv => (⟨kv.1, some kv.2⟩ : Annotation))
    simp only [List.map_append, List.map_map, List.map_cons, List.map_nil]
    exact (q1.append_right _).append (q2.append_right _)

/-! ## C159 -/

/-- **C159** (what is shown).  When example_opentracing_socket.py has ended and the server has handled what it sent, the store shows seven traces.
Each is a span with one child.  Go reads the names and the times of both as events.  The span has its tags as annotations, and nothing else. -/
theorem tracer_example_partial {reg : Registry} (hreg : registerAll libraryEvents [] = some reg) {t g c : Nat → ID} {x : Nat → OTTexts}
    {start stop cstart cstop : Nat → GoTime} (h1 : ∀ i < 7, StampText (x i).start (start i)) (h2 : ∀ i < 7, StampText (x i).stop (stop i))
    (h3 : ∀ i < 7, StampText (x i).childStart (cstart i)) (h4 : ∀ i < 7, StampText (x i).childStop (cstop i))
    (hd : ∀ i j, i < j → j < 7 → t i ≠ t j) (hgc : ∀ i < 7, g i ≠ c i) (hz : ∀ i < 7, g i ≠ 0 ∧ c i ≠ 0)
    {ps : List Packet} (hps : OTExampleCalls t g c x ps) {ops : List SockOp} (ho : SocketProcess ops ps) {s : ServerState} {i : Nat} (hi : i < 7)
    (hs : MixedServerDone s [.socket ops] (t i)) :
    ∃ tr, s.store.view (t i) = .found tr ∧
      TreeEquiv (reannotate (fun _ => []) tr) (.node ⟨⟨t i, g i, 0⟩, []⟩ [.node ⟨⟨t i, c i, g i⟩, []⟩ []]) ∧
      ∀ sp ∈ tr.spans,
        (sp.id = ⟨t i, g i, 0⟩ → unmarshalEvents reg sp.annotations =
            some (otEvents (if i = 0 then b!"Request" else b!"SQL Query") (start i) (stop i), none) ∧
          sp.annotations.Perm [⟨b!"Name", some (if i = 0 then b!"Request" else b!"SQL Query")⟩, ⟨b!"_schema:name", some []⟩,
            ⟨b!"Span.Start", some (x i).start⟩, ⟨b!"Span.End", some (x i).stop⟩, ⟨b!"_schema:Timespan", some []⟩,
            ⟨b!"query", some b!"SELECT * FROM table_name;"⟩, ⟨b!"foo", some b!"bar"⟩]) ∧
        (sp.id = ⟨t i, c i, g i⟩ → unmarshalEvents reg sp.annotations = some (otEvents b!"child" (cstart i) (cstop i), none)) := by
  obtain ⟨swap, child, span, hrec, rfl⟩ := hps
  have hflat : ((List.range 7).flatMap fun i => child i ++ span i) = ((List.range 7).flatMap fun i => [child i, span i]).flatten := by
    simp [List.range_succ]
  rw [hflat] at ho
  let sps : List OTSpan := (List.range 7).flatMap fun i => [otExampleChild (t i) (g i) (c i) (x i), otExampleSpan (t i) (g i) (x i) (swap i) i]
  have hmem : ∀ sp, sp ∈ sps ↔ ∃ j < 7, sp = otExampleChild (t j) (g j) (c j) (x j) ∨ sp = otExampleSpan (t j) (g j) (x j) (swap j) j := by
    intro sp
    simp only [sps, List.mem_flatMap, List.mem_range, List.mem_cons, List.not_mem_nil, or_false]
  have hr : List.Forall₂ (fun sp r => Records sp (r, false)) sps ((List.range 7).flatMap fun i => [child i, span i]) := by
    have : ∀ l : List Nat, (∀ j ∈ l, j < 7) → List.Forall₂ (fun sp r => Records sp (r, false))
        (l.flatMap fun i => [otExampleChild (t i) (g i) (c i) (x i), otExampleSpan (t i) (g i) (x i) (swap i) i])
        (l.flatMap fun i => [child i, span i]) := by
      intro l
      induction l with
      | nil => intro _; exact .nil
      | cons j l ih =>
        intro h
        have hj := hrec j (h j (List.mem_cons_self ..))
        exact .cons hj.1 (.cons hj.2 (ih fun k hk => h k (List.mem_cons_of_mem _ hk)))
    exact this _ fun j hj => List.mem_range.1 hj
  have hsm : ∀ sp ∈ sps, sp.sampled = true := by
    intro sp hsp
    obtain ⟨j, -, rfl | rfl⟩ := (hmem sp).1 hsp <;> rfl
  have hpair : sps.Pairwise fun a b => a.id ≠ b.id := by
    have : ∀ l : List Nat, (∀ j ∈ l, j < 7) → l.Pairwise (fun a b => t a ≠ t b) →
        (l.flatMap fun i => [otExampleChild (t i) (g i) (c i) (x i), otExampleSpan (t i) (g i) (x i) (swap i) i]).Pairwise
          fun a b => a.id ≠ b.id := by
      intro l
      induction l with
      | nil => intro _ _; exact .nil
      | cons j l ih =>
        intro h hp
        obtain ⟨hp1, hp2⟩ := List.pairwise_cons.1 hp
        have other : ∀ y ∈ l.flatMap (fun i => [otExampleChild (t i) (g i) (c i) (x i), otExampleSpan (t i) (g i) (x i) (swap i) i]),
            t j ≠ y.id.trace := by
          intro y hy
          obtain ⟨k, hk, hy⟩ := List.mem_flatMap.1 hy
          simp only [List.mem_cons, List.not_mem_nil, or_false] at hy
          rcases hy with rfl | rfl <;> exact hp1 k hk
        refine .cons ?_ (.cons ?_ (ih (fun k hk => h k (List.mem_cons_of_mem _ hk)) hp2))
        · intro y hy e
          rcases List.mem_cons.1 hy with rfl | hy
          · exact hgc j (h j (List.mem_cons_self ..)) (congrArg SpanID.span e).symm
          · exact other y hy (congrArg SpanID.trace e)
        · intro y hy e
          exact other y hy (congrArg SpanID.trace e)
    refine this _ (fun j hj => List.mem_range.1 hj) (List.Pairwise.imp_of_mem ?_ List.pairwise_lt_range)
    intro a b _ hb hab
    exact hd a b hab (List.mem_range.1 hb)
  have hfit : ∀ p ∈ ((List.range 7).flatMap fun i => [child i, span i]).flatten, Fits p := by
    have small : ∀ {sp : OTSpan} {r : List Packet}, sp.sampled = true → Records sp (r, false) → sp.operation.length ≤ 100 →
        sp.start.length ≤ 100 → sp.stop.length ≤ 100 →
        (∀ kv ∈ sp.tagList, kv = (b!"foo", .str b!"bar") ∨ kv = (b!"query", .str b!"SELECT * FROM table_name;")) → ∀ p ∈ r, Fits p := by
      intro sp r hsp hrr ho hs1 hs2 ht p hp
      obtain ⟨name, times, kvs, m1, m2, m3, rfl⟩ := records_ok hsp hrr
      simp only [List.mem_cons, List.mem_map] at hp
      rcases hp with rfl | rfl | ⟨kv, hkv, rfl⟩
      · refine marshals_small m1 (by simp [spanName]) (by simp [spanName]) ?_ _
        intro kv hkv
        simp only [spanName, List.mem_cons, List.not_mem_nil, or_false] at hkv
        subst hkv
        exact ⟨by simp, ho⟩
      · refine marshals_small m2 (by simp [Py.timespan]) (by simp [Py.timespan]) ?_ _
        intro kv hkv
        simp only [Py.timespan, List.mem_cons, List.not_mem_nil, or_false] at hkv
        rcases hkv with rfl | rfl
        · exact ⟨by simp, hs1⟩
        · exact ⟨by simp, hs2⟩
      · have := ht (kv.1, .str kv.2) (by rw [m3]; exact List.mem_map_of_mem (f := fun kv : Bytes × Bytes => (kv.1, Value.str kv.2)) hkv)
        obtain ⟨k, v⟩ := kv
        simp only [Prod.mk.injEq, Value.str.injEq] at this
        rcases this with ⟨rfl, rfl⟩ | ⟨rfl, rfl⟩ <;> exact fits_small (by simp) (by simp)
    intro p hp
    obtain ⟨r, hrm, hp⟩ := List.mem_flatten.1 hp
    obtain ⟨j, hj, hrm⟩ := List.mem_flatMap.1 hrm
    have hj := List.mem_range.1 hj
    have l1 := (h1 j hj).2
    have l2 := (h2 j hj).2
    have l3 := (h3 j hj).2
    have l4 := (h4 j hj).2
    simp only [List.mem_cons, List.not_mem_nil, or_false] at hrm
    rcases hrm with rfl | rfl
    · refine small rfl (hrec j hj).1 (by simp [otExampleChild]) (by simp only [otExampleChild]; omega) (by simp only [otExampleChild]; omega) ?_ p hp
      intro kv hkv
      cases hkv
    · refine small rfl (hrec j hj).2 ?_ (by simp only [otExampleSpan]; omega) (by simp only [otExampleSpan]; omega) ?_ p hp
      · simp only [otExampleSpan]; split <;> decide
      · intro kv hkv
        simp only [OTSpan.tagList, otExampleSpan, Option.getD_some] at hkv
        split at hkv <;> simp only [List.mem_cons, List.not_mem_nil, or_false] at hkv
        · exact hkv
        · exact hkv.symm
  have hcausal : CausalTree (.node ⟨⟨t i, g i, 0⟩, []⟩ [.node ⟨⟨t i, c i, g i⟩, []⟩ []]) := by
    refine ⟨⟨t i, g i, rfl⟩, ?_, ?_, ?_⟩
    · intro e he
      rw [List.mem_singleton.1 he]
      exact ⟨c i, rfl⟩
    · simpa [Tree.spans, Tree.spansList] using hgc i hi
    · intro sp hsp
      simp only [Tree.spans, Tree.spansList, List.append_nil, List.mem_cons, List.not_mem_nil, or_false] at hsp
      rcases hsp with rfl | rfl
      · exact (hz i hi).1
      · exact (hz i hi).2
  have hinj : ∀ j < 7, t j = t i → j = i := by
    intro j hj h
    rcases Nat.lt_trichotomy j i with k | k | k
    · exact absurd h (hd j i k hi)
    · exact k
    · exact absurd h.symm (hd i j k hj)
  obtain ⟨tr, v1, v2, v3⟩ := python_tracer_shown hreg hr hsm hpair hfit ho hcausal (by
    intro id
    constructor
    · rintro ⟨sp, hsp, rfl⟩
      simp only [Tree.spans, Tree.spansList, List.append_nil, List.mem_cons, List.not_mem_nil, or_false] at hsp
      rcases hsp with rfl | rfl
      · exact ⟨_, (hmem _).2 ⟨i, hi, .inr rfl⟩, rfl, rfl⟩
      · exact ⟨_, (hmem _).2 ⟨i, hi, .inl rfl⟩, rfl, rfl⟩
    · rintro ⟨sp, hsp, ht, rfl⟩
      obtain ⟨j, hj, rfl | rfl⟩ := (hmem sp).1 hsp
      · obtain rfl := hinj j hj ht
        exact ⟨⟨⟨t j, c j, g j⟩, []⟩, by simp [Tree.spans, Tree.spansList], rfl⟩
      · obtain rfl := hinj j hj ht
        exact ⟨⟨⟨t j, g j, 0⟩, []⟩, by simp [Tree.spans, Tree.spansList], rfl⟩) (s := s) hs
  refine ⟨tr, v1, v2, ?_⟩
  intro sp hsp
  constructor
  · intro he
    obtain ⟨k1, k2⟩ := v3 _ ((hmem _).2 ⟨i, hi, .inr rfl⟩) sp hsp he
    refine ⟨k2 _ _ (h1 i hi).1 (h2 i hi).1 ?_, k1.trans ?_⟩
    · intro kv hkv
      simp only [OTSpan.tagList, otExampleSpan, Option.getD_some] at hkv
      split at hkv <;> simp only [List.mem_cons, List.not_mem_nil, or_false] at hkv <;> rcases hkv with rfl | rfl <;> decide
    · simp only [OTSpan.shown, OTSpan.tagList, otExampleSpan, Option.getD_some]
      cases swap i
      · exact .refl _
      · exact (List.Perm.swap _ _ _).append_left _
  · intro he
    obtain ⟨-, k2⟩ := v3 _ ((hmem _).2 ⟨i, hi, .inl rfl⟩) sp hsp he
    exact k2 _ _ (h3 i hi).1 (h4 i hi).1 (by intro kv hkv; cases hkv)

/-- C159: every other one of the seven spans shows the log that the program makes. -/
def TracerExampleLogs : Prop :=
  ∀ (reg : Registry) (t g c : Nat → ID) (x : Nat → OTTexts) (start stop cstart cstop : Nat → GoTime) (ps : List Packet) (ops : List SockOp)
    (s : ServerState) (i : Nat), registerAll libraryEvents [] = some reg →
    (∀ i < 7, StampText (x i).start (start i)) → (∀ i < 7, StampText (x i).stop (stop i)) →
    (∀ i < 7, StampText (x i).childStart (cstart i)) → (∀ i < 7, StampText (x i).childStop (cstop i)) →
    (∀ i j, i < j → j < 7 → t i ≠ t j) → (∀ i < 7, g i ≠ c i) → (∀ i < 7, g i ≠ 0 ∧ c i ≠ 0) →
    OTExampleCalls t g c x ps → SocketProcess ops ps → i < 7 → i % 2 = 0 → MixedServerDone s [.socket ops] (t i) →
    ∃ tr, s.store.view (t i) = .found tr ∧ ∃ sp ∈ tr.spans, sp.id = ⟨t i, g i, 0⟩ ∧
      ∃ a ∈ sp.annotations, a.value = some b!"Hello world!"

/-! ## The programs can run -/

/-- A thread that sends each packet at once. -/
def sendAll (ps : List Packet) : List SockOp := ps.flatMap fun p => [.collect 0 p, .send 0 ((msg p).length + 1)]

theorem sendAll_run : ∀ (ps : List Packet) (s : Sock), (∀ u, s.active u = none) →
    (Sock.run s (sendAll ps)).log = s.log ++ ps.map fun p => (p, .returned)
  | [], s, _ => by simp [sendAll, Sock.run]
  | p :: ps, s, h => by
    have e : sendAll (p :: ps) = .collect 0 p :: .send 0 ((msg p).length + 1) :: sendAll ps := rfl
    have hpos : 0 < (msg p).length := by
      unfold msg varint
      rw [List.length_append]
      have : ∀ f b v, 0 < (varintLoop f b v).length := by
        intro f b v
        cases f with
        | zero => simp [varintLoop]
        | succ f => rw [varintLoop]; split <;> simp
      have := this (serialize p).length ((serialize p).length &&& 0x7f) ((serialize p).length >>> 7)
      omega
    rw [e, Sock.run, Sock.run]
    have hstep : (s.step (.collect 0 p)).step (.send 0 ((msg p).length + 1)) =
        { stream := s.stream ++ (msg p).take (msg p).length
          active := fun u => if u = 0 then none else if u = 0 then some ⟨p, msg p, 0⟩ else s.active u
          log := s.log ++ [(p, .returned)] } := by
      have hmin : min ((msg p).length + 1) (msg p).length = (msg p).length := by omega
      simp [Sock.step, h 0, hmin, Nat.ne_of_gt hpos]
    rw [hstep, sendAll_run ps]
    · simp
    · intro u
      by_cases hu : u = 0 <;> simp [hu, h u]

theorem sendAll_process (ps : List Packet) : SocketProcess (sendAll ps) ps where
  thread := by
    intro op hop
    obtain ⟨p, -, h⟩ := List.mem_flatMap.1 hop
    simp only [List.mem_cons, List.not_mem_nil, or_false] at h
    rcases h with rfl | rfl <;> rfl
  unfailing := by
    intro op hop
    obtain ⟨p, -, h⟩ := List.mem_flatMap.1 hop
    simp only [List.mem_cons, List.not_mem_nil, or_false] at h
    rcases h with rfl | rfl <;> rfl
  only := by
    intro t p hop
    obtain ⟨q, hq, h⟩ := List.mem_flatMap.1 hop
    simp only [List.mem_cons, List.not_mem_nil, or_false, SockOp.collect.injEq, reduceCtorEq] at h
    rw [h.2]; exact hq
  all := by
    rw [returned, sendAll_run ps {} fun _ => rfl]
    induction ps with
    | nil => rfl
    | cons p ps ih => simpa using ih

/-- A server that has handled what one client sent, and another client that sends garbage. -/
theorem served (c : Client) (t : ID) : ∃ s, MixedServerDone s [c] t ∧ s.conns.length = c.streams.length + 1 := by
  obtain ⟨s, s1, s2, s3, s4⟩ := server_can_serve (c.streams ++ [[2, 7, 7]])
  refine ⟨s, ⟨s1, s2, s3, [[2, 7, 7]], ?_, ?_, ?_⟩, ?_⟩
  · rw [s4]; simp
  · intro b hb
    rw [List.mem_singleton.1 hb]
    decide
  · intro b hb d hd
    rw [List.mem_singleton.1 hb, show packetsOf [2, 7, 7] = [] by decide] at hd
    cases hd
  · have := congrArg List.length s4
    simpa using this

/-- A time stamp as the client writes it. -/
theorem stamp : StampText (b!"2016-07-01T10:20:30+00:00") ⟨2016, 7, 1, 10, 20, 30, 0, 0⟩ := ⟨sampleTime 30 (by decide), by decide⟩

/-- `MarshalEvent` in the order in which the fields are written in event.py. -/
def marshalled (e : PyEvent) : List Ann := e.fields.map (fun kv => ⟨kv.1, kv.2⟩) ++ [⟨b!"_schema:" ++ e.schema, []⟩]

theorem marshalled_ok (e : PyEvent) : Py.Marshals e (marshalled e) := ⟨e.fields, .refl _, rfl⟩

/-- The hypotheses of `socket_example_shown` and `twisted_example_shown` are met. -/
example : ∃ (g : Nat → ID) (x : Nat → RoundTexts) (send : Nat → GoTime) (ps : List Packet) (s s' : ServerState),
    (∀ i < 7, StampText (x i).send (send i)) ∧ (∀ i < 7, StampText (x i).recv (send i)) ∧ (∀ i < 7, StampText (x i).log (send i)) ∧
    (∀ i j, i < j → j < 7 → g i ≠ g j) ∧ (∀ i < 7, g i ≠ 0) ∧ ExampleCalls 1 g x ps ∧ SocketProcess (sendAll ps) ps ∧
    MixedServerDone s [.socket (sendAll ps)] 1 ∧ MixedServerDone s' [.twisted (exampleTwisted ps 3)] 1 := by
  let st := b!"2016-07-01T10:20:30+00:00"
  let ps : List Packet := (List.range 7).flatMap fun i =>
    ((exampleEvents ⟨st, st, st⟩ i).map marshalled).map fun as => (exampleSpan 1 (fun i => UInt64.ofNat (i + 2)) i, as)
  obtain ⟨s, hs, -⟩ := served (.socket (sendAll ps)) 1
  obtain ⟨s', hs', -⟩ := served (.twisted (exampleTwisted ps 3)) 1
  refine ⟨fun i => UInt64.ofNat (i + 2), fun _ => ⟨st, st, st⟩, fun _ => _, ps, s, s', fun _ _ => stamp, fun _ _ => stamp, fun _ _ => stamp, ?_, ?_,
    ⟨fun i => (exampleEvents ⟨st, st, st⟩ i).map marshalled, ?_, rfl⟩, sendAll_process ps, hs, hs'⟩
  · intro i j h1 h2
    have hj : j = 0 ∨ j = 1 ∨ j = 2 ∨ j = 3 ∨ j = 4 ∨ j = 5 ∨ j = 6 := by omega
    have hi : i = 0 ∨ i = 1 ∨ i = 2 ∨ i = 3 ∨ i = 4 ∨ i = 5 := by omega
    rcases hj with rfl | rfl | rfl | rfl | rfl | rfl | rfl <;> rcases hi with rfl | rfl | rfl | rfl | rfl | rfl <;>
      first | omega | decide
  · intro i h
    have hi : i = 0 ∨ i = 1 ∨ i = 2 ∨ i = 3 ∨ i = 4 ∨ i = 5 ∨ i = 6 := by omega
    rcases hi with rfl | rfl | rfl | rfl | rfl | rfl | rfl <;> decide
  · intro i _
    rw [List.forall₂_map_right_iff]
    exact List.forall₂_same.2 fun e _ => marshalled_ok e

/-- A run of example_opentracing_socket.py: the packets of one span without baggage. -/
def recordedPackets (sp : OTSpan) : List Packet :=
  (sp.id, marshalled (spanName sp.operation)) :: (sp.id, marshalled (Py.timespan sp.start sp.stop)) :: (recordTags sp.id sp.tagList).1

theorem recordedPackets_ok {sp : OTSpan} (h1 : sp.sampled = true) (h2 : (recordTags sp.id sp.tagList).2 = false) (h3 : sp.baggage = some []) :
    Records sp (recordedPackets sp, false) := by
  rw [Records, if_neg (by simp [h1])]
  refine ⟨_, _, marshalled_ok _, marshalled_ok _, ?_⟩
  have h2' : (recordTags { trace := sp.trace, span := sp.span, parent := sp.parent.getD 0 } (sp.tags.getD [])).2 = false := h2
  simp only [h2', h3, Option.getD_some, recordBaggage, Bool.false_eq_true, if_false, List.append_nil]
  rfl

/-- The hypotheses of `tracer_example_partial` are met, in every round. -/
theorem tracer_example_exists (i : Nat) : ∃ (t g c : Nat → ID) (x : Nat → OTTexts) (u : Nat → GoTime) (ps : List Packet) (s : ServerState),
    (∀ i < 7, StampText (x i).start (u i)) ∧ (∀ i < 7, StampText (x i).stop (u i)) ∧ (∀ i < 7, StampText (x i).childStart (u i)) ∧
    (∀ i < 7, StampText (x i).childStop (u i)) ∧ (∀ i j, i < j → j < 7 → t i ≠ t j) ∧ (∀ i < 7, g i ≠ c i) ∧ (∀ i < 7, g i ≠ 0 ∧ c i ≠ 0) ∧
    OTExampleCalls t g c x ps ∧ SocketProcess (sendAll ps) ps ∧ MixedServerDone s [.socket (sendAll ps)] (t i) := by
  let st := b!"2016-07-01T10:20:30+00:00"
  let x : OTTexts := ⟨st, st, st, st⟩
  let t : Nat → ID := fun i => UInt64.ofNat (i + 2)
  let ps : List Packet := (List.range 7).flatMap fun i =>
    recordedPackets (otExampleChild (t i) 1 2 x) ++ recordedPackets (otExampleSpan (t i) 1 x (decide (i = 3)) i)
  obtain ⟨s, hs, -⟩ := served (.socket (sendAll ps)) (t i)
  refine ⟨t, fun _ => 1, fun _ => 2, fun _ => x, fun _ => _, ps, s, fun _ _ => stamp, fun _ _ => stamp, fun _ _ => stamp, fun _ _ => stamp, ?_,
    fun _ _ => (by decide : (1 : ID) ≠ 2), fun _ _ => (by decide : (1 : ID) ≠ 0 ∧ (2 : ID) ≠ 0), ⟨fun i => decide (i = 3), _, _, fun i _ => ⟨recordedPackets_ok rfl rfl rfl, recordedPackets_ok rfl ?_ rfl⟩,
    rfl⟩, sendAll_process ps, hs⟩
  · intro i j h1 h2
    have hj : j = 0 ∨ j = 1 ∨ j = 2 ∨ j = 3 ∨ j = 4 ∨ j = 5 ∨ j = 6 := by omega
    have hi : i = 0 ∨ i = 1 ∨ i = 2 ∨ i = 3 ∨ i = 4 ∨ i = 5 := by omega
    rcases hj with rfl | rfl | rfl | rfl | rfl | rfl | rfl <;> rcases hi with rfl | rfl | rfl | rfl | rfl | rfl <;>
      first | omega | decide
  · have : ∀ (t : ID) (x : OTTexts) (b : Bool) (i : Nat), (recordTags (otExampleSpan t 1 x b i).id (otExampleSpan t 1 x b i).tagList).2 = false := by
      intro t x b i
      cases b <;> rfl
    exact this _ _ _ _

/-- C159 is false of the code: recorder.py does not record the logs of a span. -/
theorem tracer_example_no_logs : ¬ TracerExampleLogs := by
  intro h
  obtain ⟨reg, hreg, -⟩ := library_registers
  obtain ⟨t, g, c, x, u, ps, s, h1, h2, h3, h4, h5, h6, h7, h8, h9, h10⟩ := tracer_example_exists 0
  obtain ⟨tr, e1, sp, e2, e3, a, e4, e5⟩ := h reg t g c x u u u u ps _ s 0 hreg h1 h2 h3 h4 h5 h6 h7 h8 h9 (by decide) rfl h10
  obtain ⟨tr', k1, -, k3⟩ := tracer_example_partial hreg h1 h2 h3 h4 h5 h6 h7 h8 h9 (by decide) h10
  rw [e1] at k1
  cases k1
  have hm := ((k3 sp e2).1 e3).2.mem_iff.1 e4
  have len : ∀ text t, StampText text t → text ≠ b!"Hello world!" := by
    rintro text t ht rfl
    obtain ⟨⟨y, mo, d, h, mi, sec, f, z, e, h1, h2, h3, h4, h5, h6, -⟩, -⟩ := ht
    have := congrArg List.length e
    simp only [List.length_append, h1.length, h2.length, h3.length, h4.length, h5.length, h6.length, List.length_cons, List.length_nil] at this
    omega
  simp only [List.mem_cons, List.not_mem_nil, or_false] at hm
  rcases hm with rfl | rfl | rfl | rfl | rfl | rfl | rfl <;> simp only [Option.some.injEq] at e5
  · exact absurd e5 (by decide)
  · exact absurd e5 (by decide)
  · exact len _ _ (h1 0 (by decide)) e5
  · exact len _ _ (h2 0 (by decide)) e5
  · exact absurd e5 (by decide)
  · exact absurd e5 (by decide)
  · exact absurd e5 (by decide)

end Appdash
