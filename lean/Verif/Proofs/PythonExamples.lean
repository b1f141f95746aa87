import Verif.Model.PythonExamples
import Verif.Spec.PythonExamples
import Verif.Properties.MixedClients
import Verif.Proofs.SampleData

/-!
# Lemmas about the example programs of the Python client
-/

namespace Appdash
open Spec Py

/-- The store of a server that has handled everything of a client with one connection. -/
theorem one_client_shown {c : Client} (hd : c.Done) (h1 : c.streams.length ≤ 1) {tr : Tree} (hc : CausalTree tr)
    (hk : ∀ e ∈ c.collected, e.1.trace = tr.span.id.trace → ∃ sp ∈ tr.spans, e.1 = sp.id)
    (hm : ∀ sp ∈ tr.spans, ∃ e ∈ c.collected, e.1 = sp.id) {s : ServerState} (hs : MixedServerDone s [c] tr.span.id.trace) :
    ∃ tr', s.store.view tr.span.id.trace = .found tr' ∧
      TreeEquiv tr' (reannotate (fun id => c.collected.flatMap fun e => if e.1 = id then e.2 else []) tr) ∧
      ∀ sp ∈ tr'.spans, (∃ sp' ∈ tr.spans, sp'.id = sp.id) ∧
        sp.annotations = c.collected.flatMap fun e => if e.1 = sp.id then e.2 else [] := by
  have hd' : ∀ c' ∈ [c], c'.Done := by intro c' h; rw [List.mem_singleton.1 h]; exact hd
  have hlive := mixed_live hs hd'
  simp only [List.flatMap_cons, List.flatMap_nil, List.append_nil] at hlive
  have hstore := server_calls_stored hs.reach
  have known : ∀ e ∈ live tr.span.id.trace (s.calls.map fun c => StoreOp.collect c.2.1 c.2.2), ∃ sp ∈ tr.spans, e.1 = sp.id := by
    intro e he
    have := List.mem_filter.1 (hlive.subset he)
    exact hk e this.1 (by simpa using this.2)
  refine annotated_view hstore hc _ known ?_ ?_
  · intro sp hsp
    obtain ⟨e, he, ee⟩ := hm sp hsp
    exact ⟨e, hlive.symm.subset (List.mem_filter.2 ⟨he, by simp [ee, hc.trace sp hsp]⟩), ee⟩
  · intro sp hsp
    have hcalls : ∀ e ∈ s.calls.map Prod.snd, e.1.trace = tr.span.id.trace → ∃ v ∈ tr.spans, e.1 = v.id := by
      intro e he ht
      refine known e ?_
      rw [server_live]
      exact List.mem_filter.2 ⟨he, by simpa using ht⟩
    rw [server_live, annotationsOf_wholeID hc hsp _ hcalls, mixed_order (before := []) (after := []) hs hd' rfl h1 (hc.trace sp hsp) (by simp)]
    induction c.collected with
    | nil => rfl
    | cons d L ih => rw [Chunked.annotationsOf_cons, List.flatMap_cons, ih]

/-! ## Sizes -/

namespace Py

theorem varintLoop_length : ∀ (f b v : Nat), (varintLoop f b v).length ≤ f + 1
  | 0, _, _ => by simp [varintLoop]
  | f + 1, b, v => by
    rw [varintLoop]
    split
    · simp
    · have := varintLoop_length f (v &&& 0x7f) (v >>> 7)
      simp; omega

theorem varint_length (n : Nat) : (varint n).length ≤ n + 1 := varintLoop_length _ _ _

theorem annGroup_length (a : Ann) : (annGroup a).length ≤ 8 + 2 * a.key.length + 2 * a.value.length := by
  have h1 : (tag 5 3).length = 1 := by decide
  have h2 : (tag 6 2).length = 1 := by decide
  have h3 : (tag 7 2).length = 1 := by decide
  have h4 : (tag 5 4).length = 1 := by decide
  have h5 := varint_length a.key.length
  have h6 := varint_length a.value.length
  simp only [annGroup, bytesField, List.length_append, h1, h2, h3, h4]
  omega

/-- A packet of a few short annotations is small. -/
theorem fits_small {p : Packet} (h1 : p.2.length ≤ 100) (h2 : ∀ a ∈ p.2, a.key.length ≤ 100 ∧ a.value.length ≤ 100) : Fits p := by
  have key : ∀ l : List Ann, (∀ a ∈ l, a.key.length ≤ 100 ∧ a.value.length ≤ 100) → (l.flatMap annGroup).length ≤ 408 * l.length := by
    intro l
    induction l with
    | nil => intro _; simp
    | cons a l ih =>
      intro h
      have := ih fun b hb => h b (List.mem_cons_of_mem _ hb)
      have h3 := annGroup_length a
      have h4 := h a (List.mem_cons_self ..)
      simp only [List.flatMap_cons, List.length_append, List.length_cons]
      omega
  have := key p.2 h2
  have e : ∀ f v, (fixed64 f v).length = (tag f 1).length + 8 := by
    intro f v; simp [fixed64, length_leBytes]
  have t1 : (tag 1 3).length = 1 := by decide
  have t2 : (tag 2 1).length = 1 := by decide
  have t3 : (tag 3 1).length = 1 := by decide
  have t4 : (tag 4 1).length = 1 := by decide
  have t5 : (tag 1 4).length = 1 := by decide
  simp only [Fits, serialize, List.length_append, e, t1, t2, t3, t4, t5]
  omega

theorem marshals_small {e : PyEvent} {as : List Ann} (hm : Py.Marshals e as) (h1 : e.fields.length ≤ 99) (h2 : e.schema.length ≤ 90)
    (h3 : ∀ kv ∈ e.fields, kv.1.length ≤ 100 ∧ kv.2.length ≤ 100) (id : SpanID) : Fits (id, as) := by
  obtain ⟨items, hp, rfl⟩ := hm
  refine fits_small ?_ ?_
  · simp [hp.length_eq]; omega
  · intro a ha
    rcases List.mem_append.1 ha with ha | ha
    · obtain ⟨kv, hkv, rfl⟩ := List.mem_map.1 ha
      exact h3 kv (hp.mem_iff.1 hkv)
    · rw [List.mem_singleton.1 ha]
      simp
      omega

end Py

/-! ## The clients -/

theorem Spec.SocketProcess.done {ops : List SockOp} {ps : List Packet} (h : SocketProcess ops ps) (hf : ∀ p ∈ ps, Fits p) :
    Client.Done (.socket ops) :=
  ⟨orderly_one_thread 0 ops h.thread h.unfailing {} (by simp) (by simp) (by simp), fun t p hp => hf p (h.only t p hp)⟩

theorem Spec.SocketProcess.collected {ops : List SockOp} {ps : List Packet} (h : SocketProcess ops ps) :
    Client.collected (.socket ops) = ps.map goCall := by
  rw [Client.collected, h.all]

theorem tw_collects (F : Factory) (hF : F.pending = none) (protos : List Proto) : ∀ (ps : List Packet) (sh : List Packet) (calls : List (Nat × Packet)) (ops : List TwOp),
    Tw.run ⟨sh, [F], protos, calls⟩ (ps.map (TwOp.collect 0) ++ ops) = Tw.run ⟨sh ++ ps, [F], protos, calls ++ ps.map fun p => (0, p)⟩ ops
  | [], sh, calls, ops => by simp
  | p :: ps, sh, calls, ops => by
    rw [List.map_cons, List.cons_append, Tw.run]
    have : Tw.step ⟨sh, [F], protos, calls⟩ (.collect 0 p) = ⟨sh ++ [p], [F], protos, calls ++ [(0, p)]⟩ := by
      simp [Tw.step, hF]
    rw [this, tw_collects F hF protos ps]
    simp

theorem flushesUp_collects (ops : List TwOp) : ∀ (ps : List Packet) (s : Tw),
    FlushesUp (Tw.run s (ps.map (TwOp.collect 0))) ops → FlushesUp s (ps.map (TwOp.collect 0) ++ ops)
  | [], s, h => h
  | p :: ps, s, h => ⟨(by intro f hf; cases hf), flushesUp_collects ops ps _ h⟩

/-- The state after the first flush. -/
def twFlushed (ps : List Packet) : Tw := ⟨ps, [⟨some [], some 0⟩], [⟨0, true, ps⟩], ps.map fun p => (0, p)⟩

theorem twFlushed_flush (ps : List Packet) : (twFlushed ps).step (.flush 0) = twFlushed ps := by
  simp [twFlushed, Tw.step]

theorem twFlushed_flushes (ps : List Packet) : ∀ n, Tw.run (twFlushed ps) (List.replicate n (.flush 0)) = twFlushed ps
  | 0 => rfl
  | n + 1 => by rw [List.replicate_succ, Tw.run, twFlushed_flush, twFlushed_flushes ps n]

theorem twFlushed_up (ps : List Packet) : Up (twFlushed ps) 0 := ⟨⟨some [], some 0⟩, 0, ⟨0, true, ps⟩, rfl, rfl, rfl, rfl⟩

theorem twFlushed_flushesUp (ps : List Packet) : ∀ n, FlushesUp (twFlushed ps) (List.replicate n (.flush 0))
  | 0 => trivial
  | n + 1 => ⟨fun f hf => by cases hf; exact twFlushed_up ps, by rw [twFlushed_flush]; exact twFlushed_flushesUp ps n⟩

theorem tw_first (ps : List Packet) : Tw.run (Tw.step {} .newFactory) (ps.map (TwOp.collect 0)) = ⟨ps, [{}], [], ps.map fun p => (0, p)⟩ := by
  have := tw_collects {} rfl [] ps [] [] []
  simp only [List.append_nil, List.nil_append, Tw.run] at this
  exact this

theorem tw_second {ps : List Packet} (hne : ps ≠ []) :
    ((Tw.step ⟨ps, [{}], [], ps.map fun p => (0, p)⟩ (.connect 0)).step (.flush 0)) = twFlushed ps := by
  simp [twFlushed, Tw.step, hne]

theorem twEnd_example {ps : List Packet} (hne : ps ≠ []) (n : Nat) : twEnd (exampleTwisted ps n) = twFlushed ps := by
  have := tw_collects {} rfl [] ps [] [] (.connect 0 :: List.replicate (n + 1) (.flush 0))
  simp only [List.nil_append] at this
  show Tw.run (Tw.step {} .newFactory) (exampleTwisted ps n) = _
  rw [exampleTwisted]
  refine Eq.trans this ?_
  rw [Tw.run, List.replicate_succ, Tw.run, tw_second hne, twFlushed_flushes]

theorem collectedBy_twFlushed (ps : List Packet) : Py.collectedBy (twFlushed ps) 0 = ps := by
  simp only [Py.collectedBy, twFlushed, List.filterMap_map]
  induction ps with
  | nil => rfl
  | cons p ps ih => simp

theorem twisted_done {ps : List Packet} (hne : ps ≠ []) (n : Nat) (hf : ∀ p ∈ ps, Fits p) : Client.Done (.twisted (exampleTwisted ps n)) := by
  refine ⟨by simp [exampleTwisted], ?_, ?_, ?_⟩
  · refine flushesUp_collects _ ps _ ?_
    rw [tw_first]
    refine ⟨(by intro f hf; cases hf), ?_⟩
    rw [List.replicate_succ]
    refine ⟨?_, ?_⟩
    · intro f hf
      cases hf
      exact ⟨⟨none, some 0⟩, 0, ⟨0, true, []⟩, rfl, rfl, rfl, rfl⟩
    · rw [tw_second hne]
      exact twFlushed_flushesUp ps n
  · rw [twEnd_example hne]; rfl
  · rw [twEnd_example hne, collectedBy_twFlushed]; exact hf

theorem twisted_collected {ps : List Packet} (hne : ps ≠ []) (n : Nat) :
    Client.collected (.twisted (exampleTwisted ps n)) = ps.map goCall := by
  rw [Client.collected, twEnd_example hne, collectedBy_twFlushed]

theorem twisted_streams {ps : List Packet} (hne : ps ≠ []) (n : Nat) :
    (Client.streams (.twisted (exampleTwisted ps n))).length = 1 := by
  rw [Client.streams, twEnd_example hne]; rfl

/-! ## The calls of the first two examples -/

theorem exampleSpan_eq (t : ID) (g : Nat → ID) : ∀ i, exampleSpan t g i = roundID t g i
  | 0 => rfl
  | i + 1 => by
    rw [exampleSpan, exampleSpan_eq t g i, childSpanID]
    cases i <;> rfl

theorem roundID_span (t : ID) (g : Nat → ID) (i : Nat) : (roundID t g i).span = g i := by cases i <;> rfl

theorem roundID_trace (t : ID) (g : Nat → ID) (i : Nat) : (roundID t g i).trace = t := by cases i <;> rfl

theorem round_causal {t : ID} {g : Nat → ID} (hd : ∀ i j, i < j → j < 7 → g i ≠ g j) (hz : ∀ i < 7, g i ≠ 0) :
    CausalTree (chain (roundID t g) 0 6) where
  root := ⟨t, g 0, by rw [chain_root]; rfl⟩
  derived := by
    intro e he
    obtain ⟨x, -, -, rfl⟩ := chain_edges _ _ _ _ he
    exact ⟨g (x + 1), by rw [newSpanID, roundID_span, roundID_trace]; rfl⟩
  distinct := by
    rw [chain_spans, List.map_map]
    refine List.pairwise_map.2 (List.Pairwise.imp_of_mem ?_ (List.pairwise_lt_range' (s := 0) (n := 6 + 1)))
    intro a b _ hb hab
    have := List.mem_range'_1.1 hb
    simp only [Function.comp, roundID_span]
    exact hd a b hab (by omega)
  nonzero := by
    intro sp hsp
    rw [chain_spans] at hsp
    obtain ⟨x, hx, rfl⟩ := List.mem_map.1 hsp
    have := List.mem_range'_1.1 hx
    rw [roundID_span]
    exact hz x (by omega)

/-- The events of a round, with the times. -/
def roundSimple (x : RoundTexts) (a b c : GoTime) (i : Nat) : List Simple :=
  [.name (if i = 0 then b!"Request" else b!"SQL Query"), .sql b!"SELECT * FROM table_name;" b!"foobar" x.send x.recv a b] ++
  if i % 2 = 0 then [.log b!"Hello world!" x.log c] else []

theorem roundSimple_py (x : RoundTexts) (a b c : GoTime) (i : Nat) : exampleEvents x i = (roundSimple x a b c i).map Simple.py := by
  unfold exampleEvents roundSimple
  by_cases h : i = 0 <;> by_cases h2 : i % 2 = 0 <;> simp [h, h2, Simple.py] 

theorem roundSimple_go (x : RoundTexts) (a b c : GoTime) (i : Nat) : (roundSimple x a b c i).map Simple.go = roundEvents a b c i := by
  unfold roundEvents roundSimple
  by_cases h2 : i % 2 = 0 <;> simp [h2, Simple.go]

theorem round_read {reg : Registry} (hreg : registerAll libraryEvents [] = some reg) {x : RoundTexts} {a b c : GoTime} (ha : StampText x.send a)
    (hb : StampText x.recv b) (hc : StampText x.log c) {i : Nat} {anns : List (List Ann)}
    (hm : List.Forall₂ Py.Marshals (exampleEvents x i) anns) :
    unmarshalEvents reg (anns.flatten.map Ann.go) = some (roundEvents a b c i, none) := by
  rw [roundSimple_py x a b c, List.forall₂_map_left_iff] at hm
  have mem : ∀ e ∈ roundSimple x a b c i, e = .name (if i = 0 then b!"Request" else b!"SQL Query") ∨
      e = .sql b!"SELECT * FROM table_name;" b!"foobar" x.send x.recv a b ∨ e = .log b!"Hello world!" x.log c := by
    intro e he
    unfold roundSimple at he
    by_cases h2 : i % 2 = 0
    · rw [if_pos h2] at he
      simpa only [List.cons_append, List.nil_append, List.mem_cons, List.not_mem_nil, or_false] using he
    · rw [if_neg h2] at he
      simp only [List.append_nil, List.mem_cons, List.not_mem_nil, or_false] at he
      exact he.imp id Or.inl
  rw [python_events_read hreg hm ?_ ?_ ?_, roundSimple_go]
  · intro e he
    rcases mem e he with rfl | rfl | rfl
    · trivial
    · exact ⟨ha.1, hb.1⟩
    · exact hc.1
  · have d1 : b!"name" ≠ b!"SQL" := by decide
    have d2 : b!"name" ≠ b!"log" := by decide
    have d3 : b!"SQL" ≠ b!"log" := by decide
    unfold roundSimple
    by_cases h2 : i % 2 = 0
    · rw [if_pos h2]
      refine .cons ?_ (.cons ?_ (.cons ?_ .nil))
      · intro f hf
        change f ∈ [Simple.sql b!"SELECT * FROM table_name;" b!"foobar" x.send x.recv a b, .log b!"Hello world!" x.log c] at hf
        simp only [List.mem_cons, List.not_mem_nil, or_false] at hf
        rcases hf with rfl | rfl
        · exact d1
        · exact d2
      · intro f hf
        rw [List.mem_singleton.1 hf]
        exact d3
      · intro f hf; cases hf
    · rw [if_neg h2]
      refine .cons ?_ (.cons ?_ .nil)
      · intro f hf
        rw [List.mem_singleton.1 hf]
        exact d1
      · intro f hf; cases hf
  · rintro ⟨⟨e, he, h⟩, -⟩
    have d1 : b!"name" ≠ b!"msg" := by decide
    have d2 : b!"SQL" ≠ b!"msg" := by decide
    have d3 : b!"log" ≠ b!"msg" := by decide
    rcases mem e he with rfl | rfl | rfl
    · exact d1 h
    · exact d2 h
    · exact d3 h

theorem round_fits {x : RoundTexts} (ha : x.send.length ≤ 40) (hb : x.recv.length ≤ 40) (hc : x.log.length ≤ 40) {i : Nat}
    {anns : List (List Ann)} (hm : List.Forall₂ Py.Marshals (exampleEvents x i) anns) (id : SpanID) : ∀ as ∈ anns, Fits (id, as) := by
  have key : ∀ e ∈ exampleEvents x i, e.fields.length ≤ 99 ∧ e.schema.length ≤ 90 ∧ ∀ kv ∈ e.fields, kv.1.length ≤ 100 ∧ kv.2.length ≤ 100 := by
    intro e he
    have : e = spanName b!"Request" ∨ e = spanName b!"SQL Query" ∨ e = Py.sqlEvent b!"SELECT * FROM table_name;" b!"foobar" x.send x.recv ∨
        e = Py.logEvent b!"Hello world!" x.log := by
      unfold exampleEvents at he
      split at he <;> split at he <;> simp at he <;> tauto
    rcases this with rfl | rfl | rfl | rfl
    · exact ⟨by decide, by decide, by decide⟩
    · exact ⟨by decide, by decide, by decide⟩
    · refine ⟨by simp [Py.sqlEvent], by simp [Py.sqlEvent], ?_⟩
      intro kv hkv
      simp only [Py.sqlEvent, List.mem_cons, List.not_mem_nil, or_false] at hkv
      rcases hkv with rfl | rfl | rfl | rfl
      · decide
      · decide
      · exact ⟨by simp, by simp; omega⟩
      · exact ⟨by simp, by simp; omega⟩
    · refine ⟨by simp [Py.logEvent], by simp [Py.logEvent], ?_⟩
      intro kv hkv
      simp only [Py.logEvent, List.mem_cons, List.not_mem_nil, or_false] at hkv
      rcases hkv with rfl | rfl
      · decide
      · exact ⟨by simp, by simp; omega⟩
  generalize exampleEvents x i = evs at hm key
  induction hm with
  | nil => intro as h; cases h
  | cons h1 h2 ih =>
    intro as h
    rcases List.mem_cons.1 h with rfl | h
    · obtain ⟨k1, k2, k3⟩ := key _ (List.mem_cons_self ..)
      exact marshals_small h1 k1 k2 k3 id
    · exact ih (fun e he => key e (List.mem_cons_of_mem _ he)) as h

theorem flatMap_groups {α β : Type} [DecidableEq α] (f : Nat → α) (g : Nat → List β) (n : Nat) (hf : ∀ i j, i < n → j < n → f i = f j → i = j)
    {j : Nat} (hj : j < n) : ((List.range n).flatMap fun i => if f i = f j then g i else []) = g j := by
  have : ∀ l : List Nat, (∀ i ∈ l, i < n) → l.Nodup → (l.flatMap fun i => if f i = f j then g i else []) = if j ∈ l then g j else [] := by
    intro l
    induction l with
    | nil => intro _ _; rfl
    | cons i l ih =>
      intro h hn
      rw [List.flatMap_cons, ih (fun k hk => h k (List.mem_cons_of_mem _ hk)) (List.nodup_cons.1 hn).2]
      by_cases e : i = j
      · subst e
        simp [(List.nodup_cons.1 hn).1]
      · have : f i ≠ f j := fun h' => e (hf i j (h i (List.mem_cons_self ..)) hj h')
        simp [this, Ne.symm e]
  rw [this _ (fun i hi => List.mem_range.1 hi) List.nodup_range, if_pos (List.mem_range.2 hj)]

/-- Any client that sends the calls over one connection. -/
theorem rounds_shown {reg : Registry} (hreg : registerAll libraryEvents [] = some reg) {t : ID} {g : Nat → ID} {x : Nat → RoundTexts}
    {send recv log : Nat → GoTime} (ha : ∀ i < 7, StampText (x i).send (send i)) (hb : ∀ i < 7, StampText (x i).recv (recv i))
    (hc : ∀ i < 7, StampText (x i).log (log i)) (hd : ∀ i j, i < j → j < 7 → g i ≠ g j) (hz : ∀ i < 7, g i ≠ 0)
    {ps : List Packet} (hps : ExampleCalls t g x ps) {c : Client} (hdone : (∀ p ∈ ps, Fits p) → c.Done) (h1 : c.streams.length ≤ 1)
    (hcol : c.collected = ps.map goCall) {s : ServerState} (hs : MixedServerDone s [c] t) :
    ShowsRounds reg t g send recv log (s.store.view t) := by
  obtain ⟨anns, hm, rfl⟩ := hps
  have hinj : ∀ i j, i < 7 → j < 7 → roundID t g i = roundID t g j → i = j := by
    intro i j hi hj h
    have h' : g i = g j := by rw [← roundID_span t g i, ← roundID_span t g j, h]
    rcases Nat.lt_trichotomy i j with h2 | h2 | h2
    · exact absurd h' (hd i j h2 hj)
    · exact h2
    · exact absurd h'.symm (hd j i h2 hi)
  have hcausal := round_causal (t := t) hd hz
  have htr : (chain (roundID t g) 0 6).span.id.trace = t := by rw [chain_root]; rfl
  have hspan : ∀ sp, sp ∈ (chain (roundID t g) 0 6).spans ↔ ∃ i < 7, sp = ⟨roundID t g i, []⟩ := by
    intro sp
    rw [chain_spans]
    constructor
    · intro h
      obtain ⟨i, hi, rfl⟩ := List.mem_map.1 h
      have := List.mem_range'_1.1 hi
      exact ⟨i, by omega, rfl⟩
    · rintro ⟨i, hi, rfl⟩
      exact List.mem_map.2 ⟨i, List.mem_range'_1.2 (by omega), rfl⟩
  have hfits := hdone (by
    intro p hp
    obtain ⟨i, hi, hp⟩ := List.mem_flatMap.1 hp
    obtain ⟨as, has, rfl⟩ := List.mem_map.1 hp
    have hi := List.mem_range.1 hi
    exact round_fits (ha i hi).2 (hb i hi).2 (hc i hi).2 (hm i hi) _ as has)
  have hk : ∀ e ∈ c.collected, e.1.trace = (chain (roundID t g) 0 6).span.id.trace → ∃ sp ∈ (chain (roundID t g) 0 6).spans, e.1 = sp.id := by
    intro e he _
    rw [hcol] at he
    obtain ⟨p, hp, rfl⟩ := List.mem_map.1 he
    obtain ⟨i, hi, hp⟩ := List.mem_flatMap.1 hp
    obtain ⟨as, has, rfl⟩ := List.mem_map.1 hp
    exact ⟨⟨roundID t g i, []⟩, (hspan _).2 ⟨i, List.mem_range.1 hi, rfl⟩, exampleSpan_eq t g i⟩
  have hall : ∀ sp ∈ (chain (roundID t g) 0 6).spans, ∃ e ∈ c.collected, e.1 = sp.id := by
    intro sp hsp
    obtain ⟨i, hi, rfl⟩ := (hspan sp).1 hsp
    have hne : anns i ≠ [] := by
      intro e
      have := hm i hi
      rw [e] at this
      simp [exampleEvents] at this
    obtain ⟨as, l, e⟩ := List.exists_cons_of_ne_nil hne
    refine ⟨goCall (exampleSpan t g i, as), ?_, exampleSpan_eq t g i⟩
    rw [hcol]
    exact List.mem_map_of_mem (List.mem_flatMap.2 ⟨i, List.mem_range.2 hi, List.mem_map.2 ⟨as, by rw [e]; simp, rfl⟩⟩)
  obtain ⟨tr', v1, v2, v3⟩ := one_client_shown hfits h1 hcausal hk hall (s := s) (by rw [htr]; exact hs)
  rw [htr] at v1
  refine ⟨tr', v1, ?_, ?_⟩
  · have := treeEquiv_reannotate (fun _ => []) v2
    rwa [reannotate_twice, chain_bare] at this
  · intro i hi sp hsp he
    rw [(v3 sp hsp).2, he, hcol]
    have : ((((List.range 7).flatMap fun i => (anns i).map fun as => (exampleSpan t g i, as)).map goCall).flatMap fun e =>
        if e.1 = roundID t g i then e.2 else []) =
        (List.range 7).flatMap fun k => if roundID t g k = roundID t g i then (anns k).flatten.map Ann.go else [] := by
      rw [List.map_flatMap, List.flatMap_assoc]
      congr 1
      funext k
      simp only [List.map_map, List.flatMap_map, Function.comp_def, goCall, exampleSpan_eq]
      split
      · rw [List.map_flatten]
        rfl
      · simp
    rw [this, flatMap_groups (roundID t g) (fun k => (anns k).flatten.map Ann.go) 7 hinj hi]
    exact round_read hreg (ha i hi) (hb i hi) (hc i hi) (hm i hi)

end Appdash
