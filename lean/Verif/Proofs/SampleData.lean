import Verif.Spec.SampleData
import Verif.Proofs.Calendar
import Verif.Proofs.EndToEnd
import Verif.Proofs.Recorder
import Mathlib.Data.List.GetD

/-!
# Lemmas about the sample data
-/

namespace Appdash
open Spec

theorem splitLoop_spec (rs : Nat → Nat) (value : Int) (n : Nat) : ∀ (k i : Nat) (sum : Int), i + k = n → 0 ≤ sum → sum ≤ value →
    ∃ segs total, splitLoop rs value n k i sum = some (segs, total) ∧ segs.length = k ∧ (∀ s ∈ segs, 0 ≤ s) ∧ sum + segs.sum = total ∧
      total ≤ value := by
  intro k
  induction k with
  | zero => exact fun i sum _ h0 h1 => ⟨[], sum, rfl, rfl, by simp, by simp, h1⟩
  | succ k ih =>
    intro i sum hn h0 h1
    have hd : (value - sum).tdiv ((n : Int) - i) = (value - sum) / ((n : Int) - i) := Int.tdiv_eq_ediv_of_nonneg (by omega)
    have hq0 : 0 ≤ (value - sum) / ((n : Int) - i) := Int.ediv_nonneg (by omega) (by omega)
    have hq1 : (value - sum) / ((n : Int) - i) ≤ value - sum := Int.ediv_le_self _ (by omega)
    rw [splitLoop, hd]
    generalize (value - sum) / ((n : Int) - i) = q at hq0 hq1
    rw [intn, if_neg (by omega)]
    have hlt : rs i % (q + 1).toNat < (q + 1).toNat := Nat.mod_lt _ (by omega)
    obtain ⟨segs, total, e, hl, hp, hs, ht⟩ := ih (i + 1) (sum + (rs i % (q + 1).toNat : Nat)) (by omega) (by omega) (by omega)
    refine ⟨((rs i % (q + 1).toNat : Nat) : Int) :: segs, total, by simp only [e], by simp [hl], ?_, ?_, ht⟩
    · intro s hs
      rcases List.mem_cons.1 hs with rfl | hs
      · omega
      · exact hp s hs
    · rw [List.sum_cons]
      omega

theorem randomSplit_spec (rs : Nat → Nat) {value : Int} {n : Nat} (hv : 0 ≤ value) (hn : 1 ≤ n) :
    ∃ segs, randomSplit rs value n = some segs ∧ segs.length = n ∧ (∀ s ∈ segs, 0 ≤ s) ∧ segs.sum = value := by
  obtain ⟨segs, total, e, hl, hp, hs, ht⟩ := splitLoop_spec rs value n (n - 1) 1 0 (by omega) (by omega) hv
  refine ⟨segs ++ [value - total], ?_, by simp [hl]; omega, ?_, ?_⟩
  · have : ((n : Int) - 1).toNat = n - 1 := by omega
    rw [randomSplit, if_neg (by omega), this, e]
  · intro s hs
    rcases List.mem_append.1 hs with hs | hs
    · exact hp s hs
    · rw [List.mem_singleton.1 hs]; omega
  · simp only [List.sum_append, List.sum_cons, List.sum_nil]
    omega

/-! ## Chains -/

theorem chain_spans (id : Nat → SpanID) : ∀ (k j : Nat), (chain id j k).spans = (List.range' j (k + 1)).map fun x => ⟨id x, []⟩ := by
  intro k
  induction k with
  | zero => intro j; rfl
  | succ k ih =>
    intro j
    rw [chain, Tree.spans, Tree.spansList, Tree.spansList, ih, List.append_nil, List.range'_succ (n := k + 1), List.map_cons]

theorem chain_root (id : Nat → SpanID) (j k : Nat) : (chain id j k).span = ⟨id j, []⟩ := by
  cases k <;> rfl

theorem chain_edges (id : Nat → SpanID) : ∀ (k j : Nat) (e : Span × Span), e ∈ (chain id j k).edges →
    ∃ x, j ≤ x ∧ x < j + k ∧ e = (⟨id x, []⟩, ⟨id (x + 1), []⟩) := by
  intro k
  induction k with
  | zero =>
    intro j e he
    simp [chain, Tree.edges, Tree.edgesList] at he
  | succ k ih =>
    intro j e he
    simp only [chain, Tree.edges, Tree.edgesList, List.map_cons, List.map_nil, List.append_nil, List.mem_append,
      List.mem_singleton] at he
    rcases he with rfl | he
    · exact ⟨j, by omega, by omega, by rw [chain_root]⟩
    · obtain ⟨x, h1, h2, h3⟩ := ih (j + 1) e he
      exact ⟨x, by omega, by omega, h3⟩

theorem chain_bare (id : Nat → SpanID) : ∀ (k j : Nat), reannotate (fun _ => []) (chain id j k) = chain id j k := by
  intro k
  induction k with
  | zero => intro j; rfl
  | succ k ih =>
    intro j
    rw [chain, reannotate, reannotateList, reannotateList, ih]

theorem spansList_cat : ∀ (a b : List Tree), Tree.spansList (a ++ b) = Tree.spansList a ++ Tree.spansList b
  | [], b => rfl
  | t :: a, b => by simp [Tree.spansList, spansList_cat a b]

mutual

theorem treeEquiv_ids {t u : Tree} (h : TreeEquiv t u) : (t.spans.map Span.id).Perm (u.spans.map Span.id) := by
  match h with
  | .node h1 _ h3 =>
    rw [Tree.spans, Tree.spans, List.map_cons, List.map_cons, h1]
    exact (forestEquiv_ids h3).cons _

theorem forestEquiv_ids {ts us : List Tree} (h : ForestEquiv ts us) :
    ((Tree.spansList ts).map Span.id).Perm ((Tree.spansList us).map Span.id) := by
  match h with
  | .nil => exact .refl _
  | .cons (t := t) (u := u) (us := us) (us' := us') h1 h2 =>
    have a := forestEquiv_ids h2
    rw [spansList_cat, List.map_append] at a
    rw [spansList_cat, Tree.spansList, Tree.spansList, List.map_append, List.map_append, List.map_append]
    refine ((treeEquiv_ids h1).append a).trans ?_
    rw [← List.append_assoc, ← List.append_assoc]
    exact List.perm_append_comm.append_right _

end

theorem sampleID_span (c : SampleInput) (j : Nat) : (sampleID c j).span = sampleSpanAt c j := by
  cases j <;> rfl

theorem sampleID_trace (c : SampleInput) (j : Nat) : (sampleID c j).trace = c.traceID := by
  cases j <;> rfl

theorem sampleID_succ (c : SampleInput) (j : Nat) : newSpanID (sampleID c j) (c.spanID (j + 1)) = sampleID c (j + 1) := by
  rw [newSpanID, sampleID_span, sampleID_trace]
  rfl

theorem sample_causal {zone : Int → Int} {c : SampleInput} (h : Normal zone c) {n : Nat} (hn : n ≤ 6) :
    CausalTree (chain (sampleID c) 0 n) where
  root := ⟨c.traceID, c.rootID, by rw [chain_root]; rfl⟩
  derived := by
    intro e he
    obtain ⟨x, -, -, rfl⟩ := chain_edges _ _ _ _ he
    exact ⟨c.spanID (x + 1), (sampleID_succ c x).symm⟩
  distinct := by
    rw [chain_spans, List.map_map]
    refine List.pairwise_map.2 (List.Pairwise.imp_of_mem ?_ (List.pairwise_lt_range' (s := 0) (n := n + 1)))
    intro a b _ hb hab
    have := List.mem_range'_1.1 hb
    simp only [Function.comp, sampleID_span]
    exact h.distinct a b hab (by omega)
  nonzero := by
    intro sp hsp
    rw [chain_spans] at hsp
    obtain ⟨x, hx, rfl⟩ := List.mem_map.1 hsp
    have := List.mem_range'_1.1 hx
    rw [sampleID_span]
    exact h.nonzero x (by omega)

/-! ## Recorders -/

/-- Recording events that `MarshalEvent` accepts only adds their annotations. -/
theorem run_recorded (env : RecEnv) (f : EventType → GVal → Except RecErr (List Annotation)) :
    ∀ (evs : List (EventType × GVal)) (r : Recorder), (∀ e ∈ evs, ∃ as, f e.1 e.2 = .ok as) →
      ∃ as, r.run env (evs.map fun e => .event (f e.1 e.2)) = ({ r with annotations := r.annotations ++ as }, []) := by
  intro evs
  induction evs with
  | nil => exact fun r _ => ⟨[], by simp [Recorder.run]⟩
  | cons e evs ih =>
    intro r h
    obtain ⟨as, he⟩ := h e List.mem_cons_self
    obtain ⟨bs, hb⟩ := ih { r with annotations := r.annotations ++ as } fun x hx => h x (List.mem_cons_of_mem _ hx)
    refine ⟨as ++ bs, ?_⟩
    rw [List.map_cons, Recorder.run]
    simp only [he, Recorder.step, Recorder.event, hb, List.append_assoc, List.append_nil]

/-- No error is found before `Finish`. -/
theorem run_no_errors (env : RecEnv) (f : EventType → GVal → Except RecErr (List Annotation)) (evs : List (EventType × GVal)) (id : SpanID)
    (h : ∀ e ∈ evs, ∃ as, f e.1 e.2 = .ok as) :
    ((Recorder.new false id).run env ((evs.map fun e => .event (f e.1 e.2)) ++ [.errors])).2 = [] := by
  obtain ⟨as, e⟩ := run_recorded env f evs (Recorder.new false id) h
  rw [Recorder.run_append, e]
  rfl

/-- The events of span `j`. -/
def sampleEvs (c : SampleInput) (i n : Nat) (t : Nat → GoTime) : Nat → List (EventType × GVal)
  | 0 => [nameEv (fakeHosts.getD (c.host % 20) []), sampleSQL (t 0) (t n) (c.tag 0 % 10)]
  | j + 1 => sampleSpanEvents c i (j + 1) (t j) (t (j + 1)) (c.tag (j + 1) % 10)

/-- What is done with the recorder of span `j`. -/
def sampleRec (c : SampleInput) (i n : Nat) (t : Nat → GoTime) (j : Nat) : Recording where
  events := sampleEvs c i n t j
  logger := false
  env := c.env j
  before := ((sampleEvs c i n t j).map fun e => .event (c.marshal j e.1 e.2)) ++ (if j = 0 then [] else [.errors])
  after := []

theorem fakeNames_getD (k : Nat) : fakeNames[k % 20]? = some (fakeNames.getD (k % 20) []) := by
  have h : k % 20 < fakeNames.length := Nat.mod_lt _ (by decide)
  rw [List.getElem?_eq_getElem h, List.getD_eq_getElem _ _ h]

theorem sampleEvs_events (c : SampleInput) (i n : Nat) (t : Nat → GoTime) {j : Nat} (hj : j ≤ 6) :
    SampleEvents c i n t j (sampleEvs c i n t j) := by
  cases j with
  | zero =>
    refine ⟨_, c.tag 0 % 10, ?_, Nat.mod_lt _ (by omega), rfl⟩
    rw [if_pos rfl]
    have h : c.host % 20 < fakeHosts.length := Nat.mod_lt _ (by decide)
    rw [List.getD_eq_getElem _ _ h]
    exact List.getElem_mem h
  | succ j =>
    refine ⟨fakeNames.getD ((i + (j + 1)) % 20) [], c.tag (j + 1) % 10, ?_, Nat.mod_lt _ (by omega), ?_⟩
    · rw [if_neg (by omega)]
      exact fakeNames_getD _
    · rw [sampleEvs, sampleSpanEvents, nameEv, sampleSQL, show fakeNames.length = 20 from rfl, Nat.add_comm (j + 1) i]
      have : j = 0 ∨ j = 1 ∨ j = 2 ∨ j = 3 ∨ j = 4 ∨ j = 5 := by omega
      rcases this with rfl | rfl | rfl | rfl | rfl | rfl <;> rfl

theorem sampleEvs_library {zone : Int → Int} {c : SampleInput} (h : Normal zone c) (i n : Nat) {t : Nat → GoTime}
    (ht : ∀ j, tTime.holds (.scalar (.time (t j))) = true) {j : Nat} :
    ∀ e ∈ sampleEvs c i n t j, e.1 ∈ libraryEvents ∧ e.1.type.holds e.2 = true := by
  have hname : ∀ s, spanNameEvent ∈ libraryEvents ∧ spanNameEvent.type.holds (.struct [.scalar (.string s)]) = true :=
    fun s => ⟨by simp [libraryEvents], rfl⟩
  have hsql : ∀ a b g, (sampleSQL (t a) (t b) g).1 ∈ libraryEvents ∧ (sampleSQL (t a) (t b) g).1.type.holds (sampleSQL (t a) (t b) g).2 = true := by
    intro a b g
    refine ⟨by simp [libraryEvents, sampleSQL], ?_⟩
    have h1 := ht a
    have h2 := ht b
    simp only [sampleSQL, sqlEvent, GType.holds, holdsAll, h1, h2]
    rfl
  intro e he
  cases j with
  | zero =>
    simp only [sampleEvs, List.mem_cons, List.not_mem_nil, or_false] at he
    rcases he with rfl | rfl
    · exact hname _
    · exact hsql _ _ _
  | succ j =>
    simp only [sampleEvs, sampleSpanEvents, List.mem_append, List.mem_cons, List.not_mem_nil, or_false] at he
    rcases he with ((rfl | he) | he) | rfl
    · exact hname _
    · split at he
      · rw [List.mem_singleton.1 he]
        refine ⟨by simp [libraryEvents], ?_⟩
        have := h.log (j + 1)
        simp only [logEvent, GType.holds, holdsAll, this]
        rfl
      · cases he
    · split at he
      · rw [List.mem_singleton.1 he]
        exact ⟨by simp [libraryEvents], rfl⟩
      · cases he
    · exact hsql _ _ _

theorem sampleEvs_schemas (c : SampleInput) (i n : Nat) (t : Nat → GoTime) {j : Nat} (hj : j ≤ 6) :
    ((sampleEvs c i n t j).map fun e => e.1.schema) = b!"name" ::
      (if j = 3 ∨ j = 6 then [b!"log"] else if j = 5 then [b!"msg"] else []) ++ [b!"SQL"] := by
  obtain ⟨name, tag, -, -, e⟩ := sampleEvs_events c i n t hj
  rw [e]
  split
  · rfl
  · split <;> rfl

theorem sampleRec_proper {zone : Int → Int} {c : SampleInput} (h : Normal zone c) (i n : Nat) {t : Nat → GoTime}
    (ht : ∀ j, tTime.holds (.scalar (.time (t j))) = true) {j : Nat} (hj : j ≤ 6) : (sampleRec c i n t j).Proper (sampleID c j) where
  recorded := by
    have hlib := sampleEvs_library h i n ht (j := j)
    have e1 : ((if j = 0 then [] else [.errors] : List RecOp)).filterMap recordedBy = [] := by split <;> rfl
    simp only [sampleRec, List.filterMap_append, e1, List.append_nil, List.filterMap_map]
    generalize sampleEvs c i n t j = evs at hlib
    induction evs with
    | nil => exact .nil
    | cons e evs ih =>
      obtain ⟨as, ha, hm⟩ := h.marshals j e.1 e.2 (hlib e List.mem_cons_self).1
      rw [List.filterMap_cons_some (b := as) (by simp [ha, recordedBy])]
      exact .cons hm (ih fun x hx => hlib x (List.mem_cons_of_mem _ hx))
  first := by
    intro op hop
    simp only [sampleRec, List.mem_append, List.mem_map] at hop
    rcases hop with ⟨e, he, rfl⟩ | hop
    · obtain ⟨as, ha, -⟩ := h.marshals j e.1 e.2 (sampleEvs_library h i n ht e he).1
      exact .inr ⟨as, by rw [ha]⟩
    · split at hop
      · cases hop
      · exact .inl (List.mem_singleton.1 hop)
  rest := by simp [sampleRec]
  accepted := h.accepted j
  library := sampleEvs_library h i n ht
  types := by
    have hs := sampleEvs_schemas c i n t hj
    have : (((sampleEvs c i n t j).map fun e => e.1.schema)).Nodup := by
      rw [hs]
      split
      · decide
      · split <;> decide
    exact List.pairwise_map.1 this
  notBoth := by
    have hs := sampleEvs_schemas c i n t hj
    rintro ⟨⟨e, he, h1⟩, f, hf, h2⟩
    have m1 : b!"msg" ∈ ((sampleEvs c i n t j).map fun e => e.1.schema) := List.mem_map.2 ⟨e, he, h1⟩
    have m2 : b!"log" ∈ ((sampleEvs c i n t j).map fun e => e.1.schema) := List.mem_map.2 ⟨f, hf, h2⟩
    rw [hs] at m1 m2
    split at m1
    · revert m1; decide
    · rename_i hn
      rw [if_neg hn] at m2
      split at m2 <;> (revert m2; decide)

/-! ## The loops -/

/-- The times at which the spans begin and end. -/
def sampleTm (zone : Int → Int) (start : GoTime) (times : List Int) : Nat → GoTime
  | 0 => start
  | j + 1 => (sampleTm zone start times j).add zone (times.getD j 0 * 1000000)

theorem sampleEvs_types (c : SampleInput) (i n : Nat) (t : Nat → GoTime) (j : Nat) : ∀ e ∈ sampleEvs c i n t j, e.1 ∈ libraryEvents := by
  intro e he
  cases j with
  | zero =>
    simp only [sampleEvs, List.mem_cons, List.not_mem_nil, or_false] at he
    rcases he with rfl | rfl <;> simp [libraryEvents, nameEv, sampleSQL]
  | succ j =>
    simp only [sampleEvs, sampleSpanEvents, List.mem_append, List.mem_cons, List.not_mem_nil, or_false] at he
    rcases he with ((rfl | he) | he) | rfl
    · simp [libraryEvents, nameEv]
    · split at he
      · rw [List.mem_singleton.1 he]; simp [libraryEvents]
      · cases he
    · split at he
      · rw [List.mem_singleton.1 he]; simp [libraryEvents]
      · cases he
    · simp [libraryEvents, sampleSQL]

theorem sampleDataSpans_spec (zone : Int → Int) {c : SampleInput} (h : MarshalsAll c) (i : Nat) (times : List Int) (start : GoTime) {n : Nat}
    (hl : times.length = n) : ∀ (k j : Nat), j + k = n →
      sampleDataSpans zone c i times k (j + 1) (sampleID c j) (sampleTm zone start times j) =
        some ⟨(List.range' (j + 1) k).flatMap fun x => (sampleRec c i n (sampleTm zone start times) x).calls (sampleID c x), none⟩ := by
  intro k
  induction k with
  | zero => intro j _; rfl
  | succ k ih =>
    intro j hj
    have hlt : j < times.length := by omega
    have ht : times[j + 1 - 1]? = some (times.getD j 0) := by
      rw [Nat.add_sub_cancel, List.getElem?_eq_getElem hlt, List.getD_eq_getElem _ _ hlt]
    have hi : intn (c.tag (j + 1)) 10 = some (c.tag (j + 1) % 10) := by
      rw [intn, if_neg (by omega)]; rfl
    have hev : sampleSpanEvents c i (j + 1) (sampleTm zone start times j)
        ((sampleTm zone start times j).add zone (times.getD j 0 * 1000000)) (c.tag (j + 1) % 10) =
        sampleEvs c i n (sampleTm zone start times) (j + 1) := rfl
    have hm : ∀ e ∈ sampleEvs c i n (sampleTm zone start times) (j + 1), ∃ as, c.marshal (j + 1) e.1 e.2 = .ok as :=
      fun e he => h _ _ _ (sampleEvs_types c i n _ _ e he)
    have hne := run_no_errors (c.env (j + 1)) (c.marshal (j + 1)) _ (sampleID c (j + 1)) hm
    have hnext := ih (j + 1) (by omega)
    rw [sampleDataSpans]
    simp only [ht, hi, sampleID_succ, hev]
    rw [if_neg (by rw [hne]; decide)]
    rw [show (sampleTm zone start times j).add zone (times.getD j 0 * 1000000) = sampleTm zone start times (j + 1) from rfl, hnext]
    simp only [List.range'_succ (n := k), List.flatMap_cons]
    congr 2
    congr 1
    simp only [Recording.calls, sampleRec, if_neg (Nat.succ_ne_zero j)]
    rw [Recorder.run_append _ _ [RecOp.finish]]
    rfl

theorem sampleDataTrace_spec (zone : Int → Int) {c : SampleInput} (h : MarshalsAll c) (i : Nat) :
    ∃ times start, randomSplit c.split ((c.length % 1000 : Nat) : Int) ((c.count % 4 + 3 : Nat) : Int) = some times ∧
      times.length = c.count % 4 + 3 ∧ (∀ s ∈ times, 0 ≤ s) ∧ times.sum = (c.length % 1000 : Nat) ∧
      start = c.now.add zone (-((c.ago % 100 : Nat) * 60000000000)) ∧
      sampleDataTrace zone c i = some
        ⟨(sampleRoot c (sampleID c 0) (fakeHosts.getD (c.host % 20) []) start (start.add zone ((c.length % 1000 : Nat) * 1000000))
            (c.tag 0 % 10)).calls ++
          (List.range' 1 (c.count % 4 + 3)).flatMap fun x =>
            (sampleRec c i (c.count % 4 + 3) (sampleTm zone start times) x).calls (sampleID c x), none⟩ := by
  obtain ⟨times, e, hl, hp, hs⟩ := randomSplit_spec c.split (value := ((c.length % 1000 : Nat) : Int)) (n := c.count % 4 + 3)
    (by omega) (by omega)
  refine ⟨times, _, e, hl, hp, hs, rfl, ?_⟩
  have hsp := sampleDataSpans_spec zone h i times (c.now.add zone (-((c.ago % 100 : Nat) * 60000000000))) hl (c.count % 4 + 3) 0 (by omega)
  have i1 : intn c.host fakeHosts.length = some (c.host % 20) := rfl
  have i2 : intn c.length 1000 = some (c.length % 1000) := rfl
  have i3 : intn c.ago 100 = some (c.ago % 100) := rfl
  have i4 : intn (c.tag 0) 10 = some (c.tag 0 % 10) := rfl
  have i5 : intn c.count (7 - 3) = some (c.count % 4) := rfl
  rw [sampleDataTrace]
  simp only [i1, i2, i3, i4, i5, e]
  have hid : newRootSpanID c.traceID c.rootID = sampleID c 0 := rfl
  rw [hid]
  rw [show sampleDataSpans zone c i times (c.count % 4 + 3) 1 (sampleID c 0) (c.now.add zone (-((c.ago % 100 : Nat) * 60000000000))) = _ from hsp]

theorem sampleLoop_spec (zone : Int → Int) {cs : Nat → SampleInput} (h : ∀ i, MarshalsAll (cs i)) : ∀ (k i : Nat),
    ∃ runs : Nat → List RecCall, (∀ x, sampleDataTrace zone (cs x) x = some ⟨runs x, none⟩) ∧
      sampleLoop zone cs k i = some ⟨(List.range' i k).flatMap runs, none⟩ := by
  intro k i
  have hx : ∀ x, ∃ l, sampleDataTrace zone (cs x) x = some ⟨l, none⟩ := by
    intro x
    obtain ⟨_, _, -, -, -, -, -, e⟩ := sampleDataTrace_spec zone (h x) x
    exact ⟨_, e⟩
  obtain ⟨runs, hr⟩ := Classical.axiomOfChoice hx
  refine ⟨runs, hr, ?_⟩
  induction k generalizing i with
  | zero => rfl
  | succ k ih =>
    rw [sampleLoop]
    simp only [hr i, ih (i + 1), List.range'_succ (n := k), List.flatMap_cons]

/-! ## Times -/

theorem take_sum_bounds : ∀ (l : List Int) (j : Nat), (∀ x ∈ l, 0 ≤ x) → 0 ≤ (l.take j).sum ∧ (l.take j).sum ≤ l.sum := by
  intro l
  induction l with
  | nil => intro j _; simp
  | cons a l ih =>
    intro j h
    have ha := h a List.mem_cons_self
    have h0 := ih 0 fun x hx => h x (List.mem_cons_of_mem _ hx)
    cases j with
    | zero => simp only [List.take_zero, List.sum_nil, List.sum_cons] at *; omega
    | succ j =>
      have := ih j fun x hx => h x (List.mem_cons_of_mem _ hx)
      simp only [List.take_succ_cons, List.sum_cons]
      omega

theorem take_succ_sum (l : List Int) (j : Nat) : (l.take (j + 1)).sum = (l.take j).sum + l.getD j 0 := by
  induction l generalizing j with
  | nil => simp
  | cons a l ih =>
    cases j with
    | zero => simp
    | succ j =>
      simp only [List.take_succ_cons, List.sum_cons, ih j, List.getD_cons_succ]
      omega

theorem sampleTm_spec {zone : Int → Int} (hz : ∀ x, (zone x).natAbs < 1440) {I : Int} (h1 : -2 ^ 61 ≤ I) (h2 : I < 2 ^ 63) {times : List Int}
    (hp : ∀ s ∈ times, 0 ≤ s) (hs : times.sum < 1000) (j : Nat) :
    sampleTm zone (.ofInstant (zone I) I) times j = .ofInstant (zone (I + (times.take j).sum * 1000000)) (I + (times.take j).sum * 1000000) := by
  induction j with
  | zero => simp [sampleTm]
  | succ j ih =>
    have hb := take_sum_bounds times j hp
    rw [sampleTm, ih, GoTime.add, (ofInstant_spec _ _ (hz _) (by omega) (by omega)).1, take_succ_sum]
    have : I + (times.take j).sum * 1000000 + times.getD j 0 * 1000000 = I + ((times.take j).sum + times.getD j 0) * 1000000 := by omega
    rw [this]

/-- The recording of the span with the given ID. -/
def sampleRecs (c : SampleInput) (i n : Nat) (t : Nat → GoTime) (id : SpanID) : Recording :=
  sampleRec c i n t (((List.range 7).find? fun j => sampleSpanAt c j = id.span).getD 0)

theorem sampleRecs_id {zone : Int → Int} {c : SampleInput} (h : Normal zone c) (i n : Nat) (t : Nat → GoTime) {j : Nat} (hj : j ≤ 6) :
    sampleRecs c i n t (sampleID c j) = sampleRec c i n t j := by
  have : ((List.range 7).find? fun k => sampleSpanAt c k = (sampleID c j).span) = some j := by
    rw [List.find?_range_eq_some]
    refine ⟨by simp [sampleID_span], List.mem_range.2 (by omega), ?_⟩
    intro k hk
    have := h.distinct k j hk hj
    simpa [sampleID_span] using this
  rw [sampleRecs, this]
  rfl

/-! ## Calls -/

/-- Nothing happens to a `ChunkedCollector` that is never given anything. -/
theorem idle_flush {cfg : Chunked.Cfg} {s : Chunked.State} (h : Chunked.Reachable cfg s) :
    (∀ d fate err, Chunked.Event.collect d fate err ∉ s.history) →
    s.pending = [] ∧ (∀ F ∈ s.flushes, F.remaining = [] ∧ F.errs = []) ∧ (∀ f e, Chunked.Event.flushEnd f e ∈ s.history → e = none) := by
  induction h with
  | init => simp
  | @step s s' _ hs ih =>
    intro hc
    cases hs with
    | collect d =>
      exfalso
      have : ∃ fate err, Chunked.Event.collect d fate err ∈ (s.collect cfg d).1.history := by
        rw [Chunked.State.collect]
        generalize (if s.started = true then s else s.start) = s1
        split
        · exact ⟨_, _, List.mem_append_right _ (List.mem_singleton.2 rfl)⟩
        · simp only
          split
          · exact ⟨_, _, List.mem_append_right _ (List.mem_singleton.2 rfl)⟩
          · split <;> exact ⟨_, _, List.mem_append_right _ (List.mem_singleton.2 rfl)⟩
      obtain ⟨fate, err, hm⟩ := this
      exact hc _ _ _ hm
    | flush =>
      obtain ⟨h1, h2, h3⟩ := ih fun d f e hm => hc d f e (by simp [Chunked.State.flushBegin, hm])
      refine ⟨rfl, ?_, ?_⟩
      · intro F hF
        rcases List.mem_append.1 hF with hF | hF
        · exact h2 F hF
        · rw [List.mem_singleton.1 hF]; exact ⟨h1, rfl⟩
      · intro f e hm
        rcases List.mem_append.1 hm with hm | hm
        · exact h3 f e hm
        · simp at hm
    | tick =>
      obtain ⟨h1, h2, h3⟩ := ih fun d f e hm => hc d f e (by simp [Chunked.State.flushBegin, hm])
      refine ⟨rfl, ?_, ?_⟩
      · intro F hF
        rcases List.mem_append.1 hF with hF | hF
        · exact h2 F hF
        · rw [List.mem_singleton.1 hF]; exact ⟨h1, rfl⟩
      · intro f e hm
        rcases List.mem_append.1 hm with hm | hm
        · exact h3 f e hm
        · simp at hm
    | send f pre post d before after err hf hr =>
      obtain ⟨h1, h2, h3⟩ := ih fun d f e hm => hc d f e (by simp [hm])
      have := (h2 f (by rw [hf]; simp)).1
      rw [hr] at this
      simp at this
    | sendTimeout f pre post d before after err ht hf hr =>
      obtain ⟨h1, h2, h3⟩ := ih fun d f e hm => hc d f e (by simp [hm])
      have := (h2 f (by rw [hf]; simp)).1
      rw [hr] at this
      simp at this
    | flushEnd f pre post hf hr hb =>
      obtain ⟨h1, h2, h3⟩ := ih fun d f e hm => hc d f e (by simp [hm])
      refine ⟨h1, fun F hF => h2 F (by rw [hf]; simp only [List.mem_append] at hF; simp; tauto), ?_⟩
      intro g e hm
      rcases List.mem_append.1 hm with hm | hm
      · exact h3 g e hm
      · have he := (h2 f (by rw [hf]; simp)).2
        simp only [he, Chunked.flushErr, List.mem_singleton, Chunked.Event.flushEnd.injEq] at hm
        exact hm.2
    | bgFlushEnd f pre post hf hr hb =>
      obtain ⟨h1, h2, h3⟩ := ih fun d f e hm => hc d f e (by simp [hm])
      refine ⟨h1, fun F hF => h2 F (by rw [hf]; simp only [List.mem_append] at hF; simp; tauto), ?_⟩
      intro g e hm
      rcases List.mem_append.1 hm with hm | hm
      · exact h3 g e hm
      · have he := (h2 f (by rw [hf]; simp)).2
        simp only [he, Chunked.flushErr, List.mem_singleton, Chunked.Event.flushEnd.injEq] at hm
        exact hm.2
    | store e hb =>
      obtain ⟨h1, h2, h3⟩ := ih fun d f e hm => hc d f e (by simp [hm])
      refine ⟨h1, h2, ?_⟩
      intro g e hm
      rcases List.mem_append.1 hm with hm | hm
      · exact h3 g e hm
      · simp at hm
    | exit => exact ih hc
    | stop =>
      have hh : ∃ ev, (ev = .stop ∨ ev = .stopPanic) ∧ s.stop.history = s.history ++ [ev] ∧ s.stop.pending = s.pending ∧ s.stop.flushes = s.flushes := by
        rw [Chunked.State.stop]
        split
        · exact ⟨.stop, .inl rfl, rfl, rfl, rfl⟩
        · exact ⟨.stopPanic, .inr rfl, rfl, rfl, rfl⟩
      obtain ⟨ev, hev, e1, e2, e3⟩ := hh
      rw [e1] at hc
      obtain ⟨h1, h2, h3⟩ := ih fun d f e hm => hc d f e (by simp [hm])
      rw [e1, e2, e3]
      refine ⟨h1, h2, ?_⟩
      intro g e hm
      rcases List.mem_append.1 hm with hm | hm
      · exact h3 g e hm
      · rcases hev with rfl | rfl <;> simp at hm

/-- Whatever the collector answers, a recorder with events and then `Finish` calls it for its span. -/
theorem finish_calls (env : RecEnv) (f : EventType → GVal → Except RecErr (List Annotation)) (evs : List (EventType × GVal)) (id : SpanID)
    (mid : List RecOp) (hmid : mid = [] ∨ mid = [.errors]) (h : ∀ e ∈ evs, ∃ as, f e.1 e.2 = .ok as) :
    ∃ as, (id, as) ∈ ((Recorder.new false id).run env (((evs.map fun e => .event (f e.1 e.2)) ++ mid) ++ [.finish])).1.calls := by
  obtain ⟨as, e⟩ := run_recorded env f evs (Recorder.new false id) h
  refine ⟨as, ?_⟩
  rw [Recorder.run_append, Recorder.run_append, e]
  rcases hmid with rfl | rfl
  all_goals
    simp only [Recorder.run, Recorder.step, Recorder.takeErrors, Recorder.finish, Recorder.new, Recorder.annotation, Recorder.failsafeAnnotation,
      List.nil_append]
    simp only [Bool.false_eq_true, if_false]
    split
    · rename_i heq
      rw [← (Prod.mk.inj heq).1]
      simp
    · rename_i heq
      rw [← (Prod.mk.inj heq).1]
      simp [Recorder.error, Recorder.failsafeAnnotation]

end Appdash
