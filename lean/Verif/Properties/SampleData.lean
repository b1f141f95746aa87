import Verif.Proofs.SampleData
import Verif.Proofs.SampleErrors
import Verif.Properties.EndToEnd

/-!
# C107, C108: the sample data and the `send` command
-/

namespace Appdash
open Spec

/-! ## C108: the sample data -/

/-- **C108** (segments).  `randomSplit` of a number that is not negative into at least one segment does not panic; it returns that many
segments, none negative, and their sum is the number. -/
theorem random_split_segments (rs : Nat → Nat) (value n : Int) (hv : 0 ≤ value) (hn : 1 ≤ n) :
    ∃ segs, randomSplit rs value n = some segs ∧ (segs.length : Int) = n ∧ (∀ s ∈ segs, 0 ≤ s) ∧ segs.sum = value := by
  obtain ⟨m, rfl⟩ : ∃ m : Nat, n = m := ⟨n.toNat, by omega⟩
  obtain ⟨segs, h1, h2, h3, h4⟩ := randomSplit_spec rs hv (n := m) (by omega)
  exact ⟨segs, h1, by rw [h2], h3, h4⟩

/-- 100 in four segments. -/
example : randomSplit (fun i => 17 * i) 100 4 = some [17, 34, 1, 48] := by decide

/-- The calls of one trace, with their times. -/
theorem sample_calls {zone : Int → Int} {c : SampleInput} (h : Normal zone c) (i : Nat) :
    ∃ n t, 3 ≤ n ∧ n ≤ 6 ∧ SampleTimes c n t ∧ (∀ j, tTime.holds (.scalar (.time (t j))) = true) ∧
      sampleDataTrace zone c i = some ⟨(chain (sampleID c) 0 n).spans.flatMap fun sp => (sampleRecs c i n t sp.id).calls sp.id, none⟩ := by
  obtain ⟨times, start, -, hl, hp, hs, hst, e⟩ := sampleDataTrace_spec zone
    (fun j E v hE => (h.marshals j E v hE).imp fun _ x => x.1) i
  have hn : c.count % 4 < 4 := Nat.mod_lt _ (by omega)
  have hlen : c.length % 1000 < 1000 := Nat.mod_lt _ (by omega)
  have hago : c.ago % 100 < 100 := Nat.mod_lt _ (by omega)
  have ha := h.after
  have hb := h.before
  generalize hc : c.count % 4 + 3 = n at hl e
  have hn3 : 3 ≤ n ∧ n ≤ 6 := by omega
  generalize c.length % 1000 = len at hs e hlen
  generalize c.ago % 100 = ago at hst hago
  generalize hI : c.now.instant + -((ago : Int) * 60000000000) = I at *
  have hst' : start = .ofInstant (zone I) I := by rw [hst, GoTime.add, hI]
  subst hst'
  have htm := sampleTm_spec h.zone (I := I) (by omega) (by omega) hp (by omega)
  have hbd := fun j => take_sum_bounds times j hp
  have hinst : ∀ j, (sampleTm zone (.ofInstant (zone I) I) times j).instant = I + (times.take j).sum * 1000000 := by
    intro j
    rw [htm, (ofInstant_spec _ _ (h.zone _) (by have := hbd j; omega) (by have := hbd j; omega)).1]
  have hall : (times.take n).sum = len := by rw [← hl, List.take_length, hs]
  refine ⟨n, sampleTm zone (.ofInstant (zone I) I) times, hn3.1, hn3.2, ⟨?_, ?_, ?_, ?_⟩, ?_, ?_⟩
  · intro j hj
    rw [hinst, hinst, take_succ_sum]
    have : 0 ≤ times.getD j 0 := by
      rw [List.getD_eq_getElem _ _ (by omega)]
      exact hp _ (List.getElem_mem _)
    omega
  · have := hinst 0
    simp only [List.take_zero, List.sum_nil] at this
    omega
  · have := hinst 0
    simp only [List.take_zero, List.sum_nil] at this
    omega
  · have h0 := hinst 0
    have h1 := hinst n
    simp only [List.take_zero, List.sum_nil] at h0
    omega
  · intro j
    rw [htm]
    exact (ofInstant_spec _ _ (h.zone _) (by have := hbd j; omega) (by have := hbd j; omega)).2
  · rw [e, chain_spans, List.flatMap_map, List.range'_succ, List.flatMap_cons]
    have hroot : (GoTime.ofInstant (zone I) I).add zone (len * 1000000) = sampleTm zone (.ofInstant (zone I) I) times n := by
      rw [htm, hall, GoTime.add, (ofInstant_spec _ _ (h.zone _) (by omega) (by omega)).1]
    congr 2
    congr 1
    · rw [sampleRecs_id h i n _ (by omega)]
      rw [Recording.calls, sampleRoot, hroot]
      rfl
    · refine List.flatMap_congr fun x hx => ?_
      have := List.mem_range'_1.1 hx
      rw [sampleRecs_id h i n _ (by omega)]

/-- **C108** (one trace).  In normal circumstances one iteration of `sampleData` records a trace of a root span and a chain of three to six
spans below it, and finds no error.  The spans follow each other in time without gaps, from the beginning to the end of the root, which is less
than a second.  A store that has received the calls in any order since the trace was last deleted, mixed with calls for other traces, shows
the chain, and `UnmarshalEvents` returns the events of each span. -/
theorem sample_trace_shown {reg : Registry} (hreg : registerAll libraryEvents [] = some reg) {zone : Int → Int} {c : SampleInput}
    (hn : Normal zone c) (i : Nat) : ∃ n t calls, 3 ≤ n ∧ n ≤ 6 ∧ SampleTimes c n t ∧ sampleDataTrace zone c i = some ⟨calls, none⟩ ∧
      (∀ e ∈ calls, e.1.trace = c.traceID) ∧
      ∀ ops ms, MemStore.new.run ops = some ms → (live c.traceID ops).Perm calls →
        ∃ tr', ms.view c.traceID = .found tr' ∧ TreeEquiv (reannotate (fun _ => []) tr') (chain (sampleID c) 0 n) ∧
          ∀ sp ∈ tr'.spans, ∃ j evs out, j ≤ n ∧ sp.id = sampleID c j ∧ SampleEvents c i n t j evs ∧
            unmarshalEvents reg sp.annotations = some (out, none) ∧ AreEvents evs out := by
  obtain ⟨n, t, h3, h6, ht, hh, e⟩ := sample_calls hn i
  have hproper : ∀ sp ∈ (chain (sampleID c) 0 n).spans, (sampleRecs c i n t sp.id).Proper sp.id := by
    intro sp hsp
    rw [chain_spans] at hsp
    obtain ⟨x, hx, rfl⟩ := List.mem_map.1 hsp
    have := List.mem_range'_1.1 hx
    rw [sampleRecs_id hn i n t (by omega)]
    exact sampleRec_proper hn i n hh (by omega)
  refine ⟨n, t, _, h3, h6, ht, e, ?_, ?_⟩
  · intro x hx
    obtain ⟨sp, hsp, hx⟩ := List.mem_flatMap.1 hx
    rw [proper_calls (hproper sp hsp)] at hx
    rw [List.mem_singleton.1 hx]
    rw [chain_spans] at hsp
    obtain ⟨x, -, rfl⟩ := List.mem_map.1 hsp
    exact sampleID_trace c x
  · intro ops ms hms hL
    have hid : (chain (sampleID c) 0 n).span.id.trace = c.traceID := by rw [chain_root]; rfl
    obtain ⟨tr', h1, h2, h4⟩ := recorded_program_shown hreg hms (sample_causal hn h6) (sampleRecs c i n t) hproper (by rw [hid]; exact hL)
    rw [hid] at h1
    rw [chain_bare] at h2
    refine ⟨tr', h1, h2, ?_⟩
    intro sp hsp
    have hm : sp.id ∈ (chain (sampleID c) 0 n).spans.map Span.id := by
      refine (treeEquiv_ids h2).subset ?_
      rw [reannotate_spans, List.map_map]
      exact List.mem_map.2 ⟨sp, hsp, rfl⟩
    rw [chain_spans, List.map_map] at hm
    obtain ⟨j, hj, hjid⟩ := List.mem_map.1 hm
    have hj' := List.mem_range'_1.1 hj
    obtain ⟨out, h5, h7⟩ := h4 sp hsp
    have hsid : sp.id = sampleID c j := hjid.symm
    rw [hsid, sampleRecs_id hn i n t (by omega)] at h7
    exact ⟨j, _, out, by omega, hsid, sampleEvs_events c i n t (by omega), h5, h7⟩

/-- **C108** (all traces).  In normal circumstances, and if the random trace IDs are different, `sampleData` returns nil, and a new store that
has received its calls, in any order, shows all 60 traces, each as in `sample_trace_shown`. -/
theorem sample_data_shown {reg : Registry} (hreg : registerAll libraryEvents [] = some reg) {zone : Int → Int} {cs : Nat → SampleInput}
    (hn : ∀ i, Normal zone (cs i)) (hd : ∀ i j, 1 ≤ i → i < j → j ≤ 60 → (cs i).traceID ≠ (cs j).traceID) :
    ∃ calls, sampleData zone cs = some ⟨calls, none⟩ ∧ ∀ L : List Entry, L.Perm calls →
      ∃ ms, MemStore.new.run (L.map fun e => .collect e.1 e.2) = some ms ∧ ∀ i, 1 ≤ i → i ≤ 60 → ∃ n t tr', 3 ≤ n ∧ n ≤ 6 ∧
        SampleTimes (cs i) n t ∧ ms.view (cs i).traceID = .found tr' ∧
        TreeEquiv (reannotate (fun _ => []) tr') (chain (sampleID (cs i)) 0 n) ∧
        ∀ sp ∈ tr'.spans, ∃ j evs out, j ≤ n ∧ sp.id = sampleID (cs i) j ∧ SampleEvents (cs i) i n t j evs ∧
          unmarshalEvents reg sp.annotations = some (out, none) ∧ AreEvents evs out := by
  obtain ⟨runs, hr, hl⟩ := sampleLoop_spec zone (cs := cs) (fun i j E v hE => ((hn i).marshals j E v hE).imp fun _ x => x.1) 60 1
  refine ⟨_, hl, ?_⟩
  intro L hL
  obtain ⟨ms, hms⟩ := collect_never_panics (L.map fun e => StoreOp.collect e.1 e.2)
  refine ⟨ms, hms, ?_⟩
  have htr : ∀ i, ∀ e ∈ runs i, e.1.trace = (cs i).traceID := by
    intro i
    obtain ⟨n, t, calls, -, -, -, he, htr, -⟩ := sample_trace_shown hreg (hn i) i
    rw [hr i, Option.some.injEq, SampleRun.mk.injEq] at he
    rw [he.1]
    exact htr
  intro i h1 h60
  obtain ⟨n, t, calls, h3, h6, ht, he, -, hshow⟩ := sample_trace_shown hreg (hn i) i
  rw [hr i, Option.some.injEq, SampleRun.mk.injEq] at he
  obtain ⟨tr', a, b, c⟩ := hshow _ ms hms (by
    rw [live_of_collects _ L _ rfl]
    refine (hL.filter _).trans ?_
    rw [← he.1]
    have : ((List.range' 1 60).flatMap runs).filter (fun e => decide (e.1.trace = (cs i).traceID)) = runs i := by
      obtain ⟨p, q, hpq⟩ : ∃ p q, List.range' 1 60 = p ++ i :: q := List.append_of_mem (List.mem_range'_1.2 ⟨h1, by omega⟩)
      have hnd : (List.range' 1 60).Nodup := List.nodup_range'
      have hmem : ∀ x ∈ List.range' 1 60, 1 ≤ x ∧ x ≤ 60 := fun x hx => by have := List.mem_range'_1.1 hx; omega
      rw [hpq] at hnd hmem ⊢
      have hno : ∀ l : List Nat, (∀ x ∈ l, 1 ≤ x ∧ x ≤ 60 ∧ x ≠ i) →
          (l.flatMap runs).filter (fun e => decide (e.1.trace = (cs i).traceID)) = [] := by
        intro l hl
        rw [List.filter_eq_nil_iff]
        intro e he
        obtain ⟨x, hx, hex⟩ := List.mem_flatMap.1 he
        have := hl x hx
        rw [decide_eq_true_eq, htr x e hex]
        rcases Nat.lt_or_gt_of_ne this.2.2 with hlt | hlt
        · exact hd x i this.1 hlt h60
        · exact (hd i x h1 hlt this.2.1).symm
      have hself : (runs i).filter (fun e => decide (e.1.trace = (cs i).traceID)) = runs i := by
        rw [List.filter_eq_self]
        intro e he
        simpa using htr i e he
      rw [List.flatMap_append, List.flatMap_cons, List.filter_append, List.filter_append, hself, hno p, hno q]
      · simp
      · intro x hx
        have := hmem x (by simp [hx])
        refine ⟨this.1, this.2, ?_⟩
        rintro rfl
        have := (List.nodup_append.1 hnd).2.1
        exact (List.nodup_cons.1 this).1 hx
      · intro x hx
        have := hmem x (by simp [hx])
        refine ⟨this.1, this.2, ?_⟩
        rintro rfl
        exact (List.nodup_append.1 hnd).2.2 x hx x (by simp) rfl
    rw [this])
  exact ⟨n, t, tr', h3, h6, ht, a, b, c⟩

/-- An input for trace `i`: the span IDs are 1 to 7, the time is noon of 29 February 2024 (UTC), and the random numbers grow with `i`. -/
def sampleInput (answer : Option RecErr) (i : Nat) : SampleInput where
  traceID := UInt64.ofNat i
  rootID := 1
  spanID := fun j => UInt64.ofNat (j + 1)
  host := i
  length := 37 * i
  ago := i
  count := i
  split := fun j => i + j
  tag := fun j => i + j
  now := ⟨2024, 2, 29, 12, 0, 0, 0, 0⟩
  logNow := fun _ => ⟨2024, 2, 29, 12, 0, 0, 0, 0⟩
  marshal := fun _ E v => .ok ((flatten E.type [] v).map annotationOf ++ [schemaMarker E.schema])
  env := fun _ => { answer := fun _ _ => answer, report := fun _ _ _ => [] }

theorem library_marshaler : ∀ e ∈ libraryEvents, e.marshaler = none := by
  intro e he
  simp only [libraryEvents, List.mem_cons, List.not_mem_nil, or_false] at he
  rcases he with rfl | rfl | rfl | rfl | rfl | rfl | rfl | rfl <;> rfl

theorem sampleInput_normal (i : Nat) : Normal (fun _ => 0) (sampleInput none i) where
  accepted := fun _ _ => rfl
  marshals := by
    intro j E v hE
    refine ⟨_, rfl, ?_⟩
    simp only [Marshals, library_marshaler E hE]
    exact ⟨_, List.Perm.refl _, rfl⟩
  distinct := by
    intro j k hjk hk
    have : sampleSpanAt (sampleInput none i) = fun j => if j = 0 then 1 else UInt64.ofNat (j + 1) := rfl
    rw [this]
    have hj : j = 0 ∨ j = 1 ∨ j = 2 ∨ j = 3 ∨ j = 4 ∨ j = 5 := by omega
    have hk : k = 1 ∨ k = 2 ∨ k = 3 ∨ k = 4 ∨ k = 5 ∨ k = 6 := by omega
    rcases hj with rfl | rfl | rfl | rfl | rfl | rfl <;> rcases hk with rfl | rfl | rfl | rfl | rfl | rfl <;> first | omega | decide
  nonzero := by
    intro j hj
    have : sampleSpanAt (sampleInput none i) = fun j => if j = 0 then 1 else UInt64.ofNat (j + 1) := rfl
    rw [this]
    have hj : j = 0 ∨ j = 1 ∨ j = 2 ∨ j = 3 ∨ j = 4 ∨ j = 5 ∨ j = 6 := by omega
    rcases hj with rfl | rfl | rfl | rfl | rfl | rfl | rfl <;> decide
  zone := fun _ => by decide
  after := show 0 ≤ (⟨2024, 2, 29, 12, 0, 0, 0, 0⟩ : GoTime).instant by decide
  before := show (⟨2024, 2, 29, 12, 0, 0, 0, 0⟩ : GoTime).instant < 2 ^ 63 by decide
  log := fun _ => show tTime.holds (.scalar (.time ⟨2024, 2, 29, 12, 0, 0, 0, 0⟩)) = true by decide

/-- The hypotheses of `sample_data_shown` are met. -/
example : ∃ cs : Nat → SampleInput, (∀ i, Normal (fun _ => 0) (cs i)) ∧
    ∀ i j, 1 ≤ i → i < j → j ≤ 60 → (cs i).traceID ≠ (cs j).traceID := by
  refine ⟨sampleInput none, sampleInput_normal, ?_⟩
  intro i j _ hij hj he
  have := congrArg UInt64.toNat (show UInt64.ofNat i = UInt64.ofNat j from he)
  rw [UInt64.toNat_ofNat', UInt64.toNat_ofNat'] at this
  omega

/-! ## C107: `appdash send` and failures -/

/-- What one expects: if the collector answers every call with an error, then `send` returns an error. -/
def SendReports : Prop := ∀ (zone : Int → Int) (cs : Nat → SampleInput) (proto : Bytes) (calls : List RecCall) (result : Option SendErr),
  SendReturns zone cs proto calls result → (∀ i j h call, ((cs i).env j).answer h call ≠ none) → result ≠ none

/-- **C107** (refuted).  `send` asks the recorders for errors before they call the collector, and not at all for the root spans: it returns
nil even if every call fails. -/
theorem send_failures_not_reported : ¬ SendReports := by
  intro h
  obtain ⟨runs, -, hl⟩ := sampleLoop_spec (fun _ => 0) (cs := sampleInput (some (.other b!"connection refused")))
    (fun i j E v _ => ⟨_, rfl⟩) 60 1
  have r1 := Chunked.Reachable.init.step (.flush _ : Chunked.Step ⟨0, false⟩ _ _)
  have r2 := r1.step (.flushEnd _ _ [] [] rfl rfl (by simp [Chunked.State.flushBegin]))
  refine h (fun _ => 0) (sampleInput (some (.other b!"connection refused"))) b!"tcp" _ none
    (.done _ _ 0 none (.inl rfl) hl r2 ?_ ?_) (fun _ _ _ _ => by simp [sampleInput]) rfl
  · simp [Chunked.State.flushBegin]
  · simp [Chunked.State.flushBegin, Chunked.flushErr]

/-- **C107** (what does not depend on the collector).  If `MarshalEvent` gives no error, then `send` returns nil exactly for the protocols tcp and
tls, whatever the collector answers. -/
theorem send_result_partial {zone : Int → Int} {cs : Nat → SampleInput} (hm : ∀ i, MarshalsAll (cs i)) {proto : Bytes} {calls : List RecCall}
    {result : Option SendErr} (h : SendReturns zone cs proto calls result) : result = none ↔ proto = b!"tcp" ∨ proto = b!"tls" := by
  obtain ⟨runs, -, hl⟩ := sampleLoop_spec zone hm 60 1
  cases h with
  | unknown h1 h2 => simp [h1, h2]
  | failed _ errs hp he =>
    rw [sampleData, hl] at he
    cases he
  | done _ s f e hp he hr hc hf =>
    rw [(idle_flush hr hc).2.2 f e hf]
    simp [hp]

/-- **C107** (what nil means).  If `send` returns nil, then the collector was called for all spans of 60 traces, each of a root span and a chain of three to
six spans below it.  What it answered is not known. -/
theorem send_attempts_partial {zone : Int → Int} {cs : Nat → SampleInput} (hm : ∀ i, MarshalsAll (cs i)) {proto : Bytes} {calls : List RecCall}
    (h : SendReturns zone cs proto calls none) {i : Nat} (h1 : 1 ≤ i) (h60 : i ≤ 60) :
    ∃ n, 3 ≤ n ∧ n ≤ 6 ∧ ∀ j ≤ n, ∃ as, (sampleID (cs i) j, as) ∈ calls := by
  obtain ⟨runs, hr, hl⟩ := sampleLoop_spec zone hm 60 1
  obtain ⟨calls', s, f, hd⟩ : ∃ calls', sampleData zone cs = some ⟨calls', none⟩ ∧ calls' = calls ∧ True := by
    generalize hres : (none : Option SendErr) = res at h
    cases h with
    | unknown => cases hres
    | failed => cases hres
    | done _ _ _ _ _ hd => exact ⟨_, hd, rfl, trivial⟩
  rw [sampleData, hl, Option.some.injEq, SampleRun.mk.injEq] at s
  subst f
  obtain ⟨times, start, -, -, -, -, -, e⟩ := sampleDataTrace_spec zone (hm i) i
  rw [hr i, Option.some.injEq, SampleRun.mk.injEq] at e
  have hlt : (cs i).count % 4 < 4 := Nat.mod_lt _ (by omega)
  refine ⟨(cs i).count % 4 + 3, by omega, by omega, ?_⟩
  intro j hj
  have hin : ∀ x ∈ runs i, x ∈ calls' := by
    intro x hx
    rw [← s.1]
    exact List.mem_flatMap.2 ⟨i, List.mem_range'_1.2 ⟨h1, by omega⟩, hx⟩
  have hmar : ∀ n t x, ∀ e ∈ sampleEvs (cs i) i n t x, ∃ as, (cs i).marshal x e.1 e.2 = .ok as :=
    fun n t x e he => hm i _ _ _ (sampleEvs_types (cs i) i n t x e he)
  cases j with
  | zero =>
    obtain ⟨as, ha⟩ := finish_calls ((cs i).env 0) ((cs i).marshal 0)
      [nameEv (fakeHosts.getD ((cs i).host % 20) []), sampleSQL start (start.add zone (((cs i).length % 1000 : Nat) * 1000000)) ((cs i).tag 0 % 10)]
      (sampleID (cs i) 0) [] (.inl rfl) (by
        intro e he
        refine hm i _ _ _ ?_
        simp only [List.mem_cons, List.not_mem_nil, or_false] at he
        rcases he with rfl | rfl <;> simp [libraryEvents, nameEv, sampleSQL])
    refine ⟨as, hin _ ?_⟩
    rw [e.1]
    refine List.mem_append_left _ ?_
    rw [List.append_nil] at ha
    exact ha
  | succ j =>
    obtain ⟨as, ha⟩ := finish_calls ((cs i).env (j + 1)) ((cs i).marshal (j + 1)) _ (sampleID (cs i) (j + 1)) [.errors] (.inr rfl)
      (hmar ((cs i).count % 4 + 3) (sampleTm zone start times) (j + 1))
    refine ⟨as, hin _ ?_⟩
    rw [e.1]
    refine List.mem_append_right _ (List.mem_flatMap.2 ⟨j + 1, List.mem_range'_1.2 ⟨by omega, by omega⟩, ?_⟩)
    simp only [Recording.calls, sampleRec, if_neg (Nat.succ_ne_zero j)]
    exact ha

/-- The hypotheses of `send_attempts_partial` are met, by a collector that refuses everything. -/
example : ∃ cs : Nat → SampleInput, (∀ i, MarshalsAll (cs i)) ∧ (∀ i j h call, ((cs i).env j).answer h call ≠ none) ∧
    ∃ calls, SendReturns (fun _ => 0) cs b!"tls" calls none := by
  refine ⟨sampleInput (some (.other b!"connection refused")), fun i j E v _ => ⟨_, rfl⟩, fun _ _ _ _ => by simp [sampleInput], ?_⟩
  obtain ⟨runs, -, hl⟩ := sampleLoop_spec (fun _ => 0) (cs := sampleInput (some (.other b!"connection refused")))
    (fun i j E v _ => ⟨_, rfl⟩) 60 1
  have r1 := Chunked.Reachable.init.step (.flush _ : Chunked.Step ⟨0, false⟩ _ _)
  have r2 := r1.step (.flushEnd _ _ [] [] rfl rfl (by simp [Chunked.State.flushBegin]))
  exact ⟨_, .done _ _ 0 none (.inr rfl) hl r2 (by simp [Chunked.State.flushBegin]) (by simp [Chunked.State.flushBegin, Chunked.flushErr])⟩

/-- **C107** (errors that are reported).  If the name of a span `j` of trace `i` that is not the root cannot be encoded, then `send` returns an
error, and it has made calls for the traces up to `i` only. -/
theorem send_reports_unencodable_partial {zone : Int → Int} {cs : Nat → SampleInput} {i j : Nat} (hi : 1 ≤ i) (h60 : i ≤ 60) (hj : 1 ≤ j) (h3 : j ≤ 3)
    (hb : ∀ v, ∃ e, (cs i).marshal j spanNameEvent v = .error e) {proto : Bytes} {calls : List RecCall} {result : Option SendErr}
    (h : SendReturns zone cs proto calls result) :
    result ≠ none ∧ ∀ call ∈ calls, ∃ t, 1 ≤ t ∧ t ≤ i ∧ call.1.trace = (cs t).traceID := by
  cases h with
  | unknown => exact ⟨by simp, by simp⟩
  | failed _ _ _ he => exact ⟨by simp, (sampleLoop_errors zone cs hj h3 hb 60 1 _ hi (by omega) he).2⟩
  | done _ _ _ _ _ he => exact absurd rfl (sampleLoop_errors zone cs hj h3 hb 60 1 _ hi (by omega) he).1

/-- Inputs for which the names of the spans of the seventh trace cannot be encoded. -/
def brokenInput (i : Nat) : SampleInput :=
  { sampleInput none i with
    marshal := fun j E v => if i = 7 ∧ E.schema = b!"name" then .error (.other b!"broken") else (sampleInput none i).marshal j E v }

example : (∀ v, ∃ e, (brokenInput 7).marshal 2 spanNameEvent v = .error e) ∧
    ∃ calls result, SendReturns (fun _ => 0) brokenInput b!"tcp" calls result := by
  have hb : ∀ v, ∃ e, (brokenInput 7).marshal 2 spanNameEvent v = .error e := fun v => ⟨.other b!"broken", by simp [brokenInput, spanNameEvent]⟩
  refine ⟨hb, ?_⟩
  have h : (sampleData (fun _ => 0) brokenInput).isSome = true := by decide +kernel
  obtain ⟨⟨calls, result⟩, h⟩ := Option.isSome_iff_exists.1 h
  cases result with
  | none => exact absurd rfl (sampleLoop_errors _ _ (by decide) (by decide) hb 60 1 _ (by decide) (by decide) h).1
  | some errs => exact ⟨_, _, .failed _ _ (.inl rfl) h⟩

end Appdash
