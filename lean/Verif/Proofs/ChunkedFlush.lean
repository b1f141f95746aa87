import Verif.Proofs.Chunked

/-! # What each flush sends -/

namespace Appdash.Chunked

/-- The map holds one entry for each collected span. -/
def Grouped (m : AMap SpanID (List Annotation)) (ds : List Delivery) : Prop :=
  (AMap.keys m).Nodup ∧ ∀ id, m.get id = if id ∈ ds.map Prod.fst then some (annotationsOf id ds) else none

theorem annotationsOf_snoc (id : SpanID) (ds : List Delivery) (d : Delivery) :
    annotationsOf id (ds ++ [d]) = annotationsOf id ds ++ (if d.1 = id then d.2 else []) := by
  simp only [annotationsOf, List.filter_append, List.flatMap_append]
  congr 1
  by_cases h : d.1 = id <;> simp [h]

theorem annotationsOf_absent {id : SpanID} {ds : List Delivery} (h : id ∉ ds.map Prod.fst) : annotationsOf id ds = [] := by
  simp only [annotationsOf]
  have : ds.filter (fun d => decide (d.1 = id)) = [] := by
    rw [List.filter_eq_nil_iff]
    intro d hd he
    exact h (List.mem_map.2 ⟨d, hd, by simpa using he⟩)
  rw [this]; rfl

theorem Grouped.enqueue {m : AMap SpanID (List Annotation)} {ds : List Delivery} (h : Grouped m ds) (d : Delivery) :
    Grouped (enqueue m d) (ds ++ [d]) := by
  obtain ⟨hn, hg⟩ := h
  have hsame := hg d.1
  have mem : ∀ id, id ∈ (ds ++ [d]).map Prod.fst ↔ id ∈ ds.map Prod.fst ∨ id = d.1 := by
    intro id; simp [eq_comm]
  unfold Chunked.enqueue
  cases hget : m.get d.1 with
  | none =>
    rw [hget] at hsame
    have habs : d.1 ∉ ds.map Prod.fst := by
      intro hm; rw [if_pos hm] at hsame; cases hsame
    refine ⟨AMap.nodup_keys_set _ _ _ hn, ?_⟩
    intro id
    simp only [AMap.get_set, mem, annotationsOf_snoc]
    by_cases hid : d.1 = id
    · subst hid
      simp [annotationsOf_absent habs]
    · simp only [hid, if_false, List.append_nil, or_false, Ne.symm hid, hg id, fun h : id = d.1 => hid h.symm]
  | some p =>
    rw [hget] at hsame
    have hpres : d.1 ∈ ds.map Prod.fst := by
      by_cases hm : d.1 ∈ ds.map Prod.fst
      · exact hm
      · rw [if_neg hm] at hsame; cases hsame
    rw [if_pos hpres, Option.some.injEq] at hsame
    simp only
    split
    · refine ⟨AMap.nodup_keys_set _ _ _ hn, ?_⟩
      intro id
      simp only [AMap.get_set, mem, annotationsOf_snoc]
      by_cases hid : d.1 = id
      · subst hid
        simp [hsame]
      · simp only [hid, if_false, List.append_nil, or_false, Ne.symm hid, hg id]
    · rename_i h0
      have hd2 : d.2 = [] := by
        cases hd : d.2 with
        | nil => rfl
        | cons a l => rw [hd] at h0; simp at h0
      refine ⟨hn, ?_⟩
      intro id
      simp only [mem, annotationsOf_snoc, hg id]
      by_cases hid : d.1 = id
      · subst hid
        simp [hpres, hd2]
      · simp only [hid, if_false, List.append_nil, or_false, Ne.symm hid]

theorem filter_of_nodup (l : List Delivery) (hn : (l.map Prod.fst).Nodup) (id : SpanID) :
    l.filter (fun d => d.1 = id) = match AMap.get l id with
      | some v => [(id, v)]
      | none => [] := by
  induction l with
  | nil => rfl
  | cons p l ih =>
    obtain ⟨a, b⟩ := p
    simp only [List.map_cons, List.nodup_cons] at hn
    by_cases ha : a = id
    · subst ha
      have : l.filter (fun d => decide (d.1 = a)) = [] := by
        rw [List.filter_eq_nil_iff]
        intro d hd he
        exact hn.1 (List.mem_map.2 ⟨d, hd, by simpa using he⟩)
      simp [AMap.get, this]
    · simp only [AMap.get, if_neg ha, List.filter_cons, decide_eq_true_eq]
      exact ih hn.2

theorem Grouped.perm {m : AMap SpanID (List Annotation)} {ds out : List Delivery} (h : Grouped m ds)
    (hp : out.Perm m) : GroupedBySpan out ds := by
  intro id
  have hn : (out.map Prod.fst).Nodup := ((hp.map Prod.fst).nodup_iff).2 h.1
  have hget : AMap.get out id = m.get id := by
    cases hm : m.get id with
    | none =>
      cases ho : AMap.get out id with
      | none => rfl
      | some v =>
        have := hp.mem_iff.1 (AMap.mem_of_get ho)
        rw [AMap.get_of_mem h.1 this] at hm
        cases hm
    | some v => exact AMap.get_of_mem hn (hp.mem_iff.2 (AMap.mem_of_get hm))
  rw [filter_of_nodup out hn, hget, h.2 id]
  split <;> simp_all

/-! ## Histories -/

theorem waiting_snoc (h : List Event) (e : Event) : waiting (h ++ [e]) = (match e with
    | .collect d .queued _ => waiting h ++ [d]
    | .collect _ (.dropped _) _ => []
    | .flushBegin _ => []
    | _ => waiting h) := by
  unfold waiting
  rw [List.foldl_append]
  rfl

theorem before_append {f : Nat} {h : List Event} (hb : .flushBegin f ∈ h) (h' : List Event) :
    before f (h ++ h') = before f h := by
  unfold before
  induction h with
  | nil => cases hb
  | cons e h ih =>
    rw [List.cons_append, List.takeWhile_cons, List.takeWhile_cons]
    rcases List.mem_cons.1 hb with rfl | hb
    · simp
    · rw [ih hb]

theorem before_self {f : Nat} {h : List Event} (hb : .flushBegin f ∉ h) : before f (h ++ [.flushBegin f]) = h := by
  unfold before
  induction h with
  | nil => simp
  | cons e h ih =>
    simp only [List.mem_cons, not_or] at hb
    rw [List.cons_append, List.takeWhile_cons, ih hb.2]
    cases e with
    | flushBegin g =>
      have : g ≠ f := by rintro rfl; exact hb.1 rfl
      simp [this]
    | _ => simp

/-- The event concerns flush `f` sending or giving up. -/
def About (f : Nat) (e : Event) : Prop := (∃ d err, e = .send f d err) ∨ ∃ lost, e = .timeout f lost

theorem sends_append (f : Nat) (h h' : List Event) : sends f (h ++ h') = sends f h ++ sends f h' := by
  simp [sends]

theorem errorsOf_append (f : Nat) (h h' : List Event) : errorsOf f (h ++ h') = errorsOf f h ++ errorsOf f h' := by
  simp [errorsOf]

theorem sends_other {f : Nat} {h : List Event} (hh : ∀ e ∈ h, ¬ About f e) : sends f h = [] := by
  simp only [sends, List.filterMap_eq_nil_iff]
  intro e he
  cases e <;> simp
  rintro rfl
  exact hh _ he (.inl ⟨_, _, rfl⟩)

theorem errorsOf_other {f : Nat} {h : List Event} (hh : ∀ e ∈ h, ¬ About f e) : errorsOf f h = [] := by
  simp only [errorsOf, List.flatMap_eq_nil_iff]
  intro e he
  cases e <;> simp
  · rintro rfl
    exact absurd (.inl ⟨_, _, rfl⟩) (hh _ he)
  · rintro rfl
    exact hh _ he (.inr ⟨_, rfl⟩)

/-- Flush `f` has not given up. -/
def InTime (f : Nat) (h : List Event) : Prop := ∀ lost, .timeout f lost ∉ h

/-- What flush `f` has sent and what it still holds is what was waiting when it began. -/
def Sent (f : Nat) (rest : List Delivery) (h : List Event) : Prop :=
  InTime f h → ∃ m, Grouped m (waiting (before f h)) ∧ (sends f h ++ rest).Perm m

theorem Sent.append {f : Nat} {rest : List Delivery} {h h' : List Event} (hs : Sent f rest h)
    (hb : .flushBegin f ∈ h) (hh : ∀ e ∈ h', ¬ About f e) : Sent f rest (h ++ h') := by
  intro ht
  obtain ⟨m, h1, h2⟩ := hs (fun lost hm => ht lost (by simp [hm]))
  exact ⟨m, by rw [before_append hb]; exact h1, by rw [sends_append, sends_other hh, List.append_nil]; exact h2⟩

/-- The invariant. -/
structure FlushInv (s : State) : Prop where
  pend : Grouped s.pending (waiting s.history)
  begun : ∀ f, .flushBegin f ∈ s.history ↔ f < s.nextFlush
  about : ∀ f, ∀ e ∈ s.history, About f e → f < s.nextFlush
  nodup : (s.flushes.map Flush.id).Nodup
  ids : ∀ F ∈ s.flushes, F.id < s.nextFlush
  running : ∀ F ∈ s.flushes, Sent F.id F.remaining s.history ∧ F.errs = errorsOf F.id s.history
  ended : ∀ f err, .flushEnd f err ∈ s.history → f < s.nextFlush ∧ f ∉ s.flushes.map Flush.id ∧
    Sent f [] s.history ∧ err = flushErr (errorsOf f s.history)
  alive : ∀ f, f < s.nextFlush → f ∈ s.flushes.map Flush.id ∨ ∃ err, .flushEnd f err ∈ s.history

/-- Events that do not touch flushes or the queue. -/
theorem FlushInv.quiet {s s' : State} (h : FlushInv s) (hp : Grouped s'.pending (waiting s'.history)) (hf : s'.flushes = s.flushes)
    (hn : s'.nextFlush = s.nextFlush) (e : Event) (hh : s'.history = s.history ++ [e])
    (ha : ∀ f, ¬ About f e) (hb : ∀ f, e ≠ .flushBegin f)
    (hend : ∀ f err, e ≠ .flushEnd f err) : FlushInv s' := by
  have habout : ∀ f, ∀ e' ∈ [e], ¬ About f e' := by
    intro f e' he'; rw [List.mem_singleton] at he'; rw [he']; exact ha f
  refine ⟨hp, ?_, ?_, by rw [hf]; exact h.nodup, by rw [hf, hn]; exact h.ids, ?_, ?_, ?_⟩
  · intro f
    rw [hh, hn, List.mem_append, List.mem_singleton, h.begun f]
    exact ⟨fun hx => hx.elim id (fun hx => absurd hx.symm (hb f)), .inl⟩
  · intro f e' he' hab
    rw [hn]
    rw [hh, List.mem_append, List.mem_singleton] at he'
    rcases he' with he' | rfl
    · exact h.about f e' he' hab
    · exact absurd hab (ha f)
  · intro F hF
    rw [hf] at hF
    obtain ⟨h1, h2⟩ := h.running F hF
    rw [hh]
    exact ⟨h1.append ((h.begun _).2 (h.ids F hF)) (habout _),
      by rw [errorsOf_append, errorsOf_other (habout _), List.append_nil]; exact h2⟩
  · intro f err hm
    rw [hh, List.mem_append, List.mem_singleton] at hm
    rcases hm with hm | hm
    · obtain ⟨h1, h2, h3, h4⟩ := h.ended f err hm
      rw [hn, hf, hh]
      exact ⟨h1, h2, h3.append ((h.begun _).2 h1) (habout _),
        by rw [errorsOf_append, errorsOf_other (habout _), List.append_nil]; exact h4⟩
    · exact absurd hm.symm (hend f err)
  · intro f hlt
    rw [hn] at hlt
    rw [hf, hh]
    rcases h.alive f hlt with h1 | ⟨err, h1⟩
    · exact .inl h1
    · exact .inr ⟨err, by simp [h1]⟩

/-- The start of a flush. -/
theorem FlushInv.flushBegin {s : State} (h : FlushInv s) : FlushInv s.flushBegin := by
  have hnb : .flushBegin s.nextFlush ∉ s.history := by rw [h.begun]; omega
  have hno : ∀ e ∈ s.history ++ [.flushBegin s.nextFlush], ¬ About s.nextFlush e := by
    intro e he hab
    rw [List.mem_append, List.mem_singleton] at he
    rcases he with he | rfl
    · have := h.about _ e he hab; omega
    · rcases hab with ⟨_, _, h⟩ | ⟨_, h⟩ <;> cases h
  have hq : ∀ f, ∀ e' ∈ [Event.flushBegin s.nextFlush], ¬ About f e' := by
    intro f e' he' hab
    rw [List.mem_singleton] at he'; subst he'
    rcases hab with ⟨_, _, h⟩ | ⟨_, h⟩ <;> cases h
  refine ⟨?_, ?_, ?_, ?_, ?_, ?_, ?_, ?_⟩
  · simp only [State.flushBegin, waiting_snoc]
    exact ⟨by simp [AMap.keys], by simp⟩
  · intro f
    simp only [State.flushBegin, List.mem_append, List.mem_singleton, h.begun f, Event.flushBegin.injEq]
    omega
  · intro f e he hab
    simp only [State.flushBegin] at he ⊢
    rw [List.mem_append, List.mem_singleton] at he
    rcases he with he | rfl
    · have := h.about f e he hab; omega
    · rcases hab with ⟨_, _, h⟩ | ⟨_, h⟩ <;> cases h
  · simp only [State.flushBegin, List.map_append, List.map_cons, List.map_nil]
    rw [List.nodup_append]
    refine ⟨h.nodup, by simp, ?_⟩
    intro a ha b hb
    rw [List.mem_singleton] at hb
    obtain ⟨F, hF, rfl⟩ := List.mem_map.1 ha
    have := h.ids F hF
    omega
  · intro F hF
    simp only [State.flushBegin, List.mem_append, List.mem_singleton] at hF ⊢
    rcases hF with hF | rfl
    · have := h.ids F hF; omega
    · simp
  · intro F hF
    simp only [State.flushBegin, List.mem_append, List.mem_singleton] at hF ⊢
    rcases hF with hF | rfl
    · obtain ⟨h1, h2⟩ := h.running F hF
      exact ⟨h1.append ((h.begun _).2 (h.ids F hF)) (hq _),
        by rw [errorsOf_append, errorsOf_other (hq _), List.append_nil]; exact h2⟩
    · refine ⟨fun _ => ⟨s.pending, ?_, ?_⟩, ?_⟩
      · simp only [before_self hnb]; exact h.pend
      · simp only [sends_other hno, List.nil_append]; exact List.Perm.refl _
      · rw [errorsOf_other hno]
  · intro f err hm
    simp only [State.flushBegin, List.mem_append, List.mem_singleton, reduceCtorEq, or_false] at hm ⊢
    obtain ⟨h1, h2, h3, h4⟩ := h.ended f err hm
    refine ⟨by omega, ?_, h3.append ((h.begun _).2 h1) (hq _),
      by rw [errorsOf_append, errorsOf_other (hq _), List.append_nil]; exact h4⟩
    simp only [List.map_append, List.map_cons, List.map_nil, List.mem_append, List.mem_singleton, not_or]
    exact ⟨h2, by omega⟩
  · intro f hlt
    simp only [State.flushBegin, List.map_append, List.map_cons, List.map_nil, List.mem_append, List.mem_singleton] at hlt ⊢
    rcases Nat.lt_or_ge f s.nextFlush with h1 | h1
    · rcases h.alive f h1 with h1 | ⟨err, h1⟩
      · exact .inl (.inl h1)
      · exact .inr ⟨err, .inl h1⟩
    · exact .inl (.inr (by omega))

/-- A send, possibly followed by giving up. -/
theorem FlushInv.sends {s s' : State} (h : FlushInv s) (f : Flush) (pre post : List Flush)
    (hf : s.flushes = pre ++ f :: post) (es : List Event) (rem : List Delivery) (errs : List Err)
    (hp : s'.pending = s.pending) (hf' : s'.flushes = pre ++ { f with remaining := rem, errs := errs } :: post)
    (hn : s'.nextFlush = s.nextFlush) (hh : s'.history = s.history ++ es)
    (hes : ∀ e ∈ es, About f.id e)
    (herr : errs = f.errs ++ errorsOf f.id es)
    (hrem : InTime f.id es → (Chunked.sends f.id es ++ rem).Perm f.remaining) : FlushInv s' := by
  have hmap : s'.flushes.map Flush.id = s.flushes.map Flush.id := by rw [hf, hf']; simp
  have hother : ∀ g, g ≠ f.id → ∀ e ∈ es, ¬ About g e := by
    intro g hg e he hab
    rcases hes e he with ⟨_, _, h1⟩ | ⟨_, h1⟩ <;> rcases hab with ⟨_, _, h2⟩ | ⟨_, h2⟩ <;> rw [h1] at h2 <;> cases h2 <;> exact hg rfl
  have hnb : ∀ g, .flushBegin g ∉ es := by
    intro g hm
    rcases hes _ hm with ⟨_, _, h1⟩ | ⟨_, h1⟩ <;> cases h1
  have hne : ∀ g err, .flushEnd g err ∉ es := by
    intro g err hm
    rcases hes _ hm with ⟨_, _, h1⟩ | ⟨_, h1⟩ <;> cases h1
  have hfm : f ∈ s.flushes := by rw [hf]; simp
  have hfid := h.ids f hfm
  have hw : waiting (s.history ++ es) = waiting s.history := by
    have : ∀ (es h : List Event), (∀ e ∈ es, About f.id e) → waiting (h ++ es) = waiting h := by
      intro es
      induction es with
      | nil => intro h _; simp
      | cons e es ih =>
        intro h hes
        have e1 : h ++ e :: es = (h ++ [e]) ++ es := by simp
        rw [e1, ih _ (fun e he => hes e (by simp [he])), waiting_snoc]
        rcases hes e (by simp) with ⟨_, _, h1⟩ | ⟨_, h1⟩ <;> rw [h1]
    exact this es s.history hes
  have hidsne : ∀ F ∈ pre ++ post, F.id ≠ f.id := by
    intro F hF he
    have hnd := h.nodup
    rw [hf] at hnd
    simp only [List.map_append, List.map_cons, List.nodup_append, List.nodup_cons] at hnd
    rcases List.mem_append.1 hF with hF | hF
    · exact hnd.2.2 F.id (List.mem_map.2 ⟨F, hF, rfl⟩) f.id (by simp) he
    · exact hnd.2.1.1 (by rw [← he]; exact List.mem_map.2 ⟨F, hF, rfl⟩)
  refine ⟨by rw [hp, hh, hw]; exact h.pend, ?_, ?_, by rw [hmap]; exact h.nodup, ?_, ?_, ?_, ?_⟩
  · intro g
    rw [hh, hn, List.mem_append, h.begun g]
    exact ⟨fun hx => hx.elim id (fun hx => absurd hx (hnb g)), .inl⟩
  · intro g e he hab
    rw [hn]
    rw [hh, List.mem_append] at he
    rcases he with he | he
    · exact h.about g e he hab
    · by_cases hg : g = f.id
      · rw [hg]; exact hfid
      · exact absurd hab (hother g hg e he)
  · intro F hF
    rw [hn]
    have : F.id ∈ s'.flushes.map Flush.id := List.mem_map.2 ⟨F, hF, rfl⟩
    rw [hmap] at this
    obtain ⟨G, hG, he⟩ := List.mem_map.1 this
    rw [← he]; exact h.ids G hG
  · intro F hF
    rw [hf', List.mem_append, List.mem_cons] at hF
    rw [hh]
    have old : ∀ F ∈ pre ++ post, Sent F.id F.remaining (s.history ++ es) ∧ F.errs = errorsOf F.id (s.history ++ es) := by
      intro F hF
      have hF' : F ∈ s.flushes := by
        rw [hf]; rcases List.mem_append.1 hF with hF | hF <;> simp [hF]
      obtain ⟨h1, h2⟩ := h.running F hF'
      exact ⟨h1.append ((h.begun _).2 (h.ids F hF')) (hother _ (hidsne F hF)),
        by rw [errorsOf_append, errorsOf_other (hother _ (hidsne F hF)), List.append_nil]; exact h2⟩
    rcases hF with hF | rfl | hF
    · exact old F (by simp [hF])
    · obtain ⟨h1, h2⟩ := h.running f hfm
      refine ⟨?_, by simp only [errorsOf_append, herr, h2]⟩
      intro ht
      simp only at ht
      obtain ⟨m, h3, h4⟩ := h1 (fun lost hm => ht lost (by simp [hm]))
      refine ⟨m, by simp only [before_append ((h.begun _).2 hfid)]; exact h3, ?_⟩
      simp only [sends_append, List.append_assoc]
      exact (List.Perm.append_left _ (hrem (fun lost hm => ht lost (by simp [hm])))).trans h4
    · exact old F (by simp [hF])
  · intro g err hm
    rw [hh, List.mem_append] at hm
    rcases hm with hm | hm
    · obtain ⟨h1, h2, h3, h4⟩ := h.ended g err hm
      have hg : g ≠ f.id := by
        rintro rfl
        exact h2 (List.mem_map.2 ⟨f, hfm, rfl⟩)
      rw [hn, hmap, hh]
      exact ⟨h1, h2, h3.append ((h.begun _).2 h1) (hother g hg),
        by rw [errorsOf_append, errorsOf_other (hother g hg), List.append_nil]; exact h4⟩
    · exact absurd hm (hne g err)
  · intro g hlt
    rw [hn] at hlt
    rw [hmap, hh]
    rcases h.alive g hlt with h1 | ⟨err, h1⟩
    · exact .inl h1
    · exact .inr ⟨err, by simp [h1]⟩

/-- The end of a flush. -/
theorem FlushInv.flushEnd {s s' : State} (h : FlushInv s) (f : Flush) (pre post : List Flush)
    (hf : s.flushes = pre ++ f :: post) (hr : f.remaining = [])
    (hp : s'.pending = s.pending) (hf' : s'.flushes = pre ++ post)
    (hn : s'.nextFlush = s.nextFlush) (hh : s'.history = s.history ++ [.flushEnd f.id (flushErr f.errs)]) :
    FlushInv s' := by
  have hfm : f ∈ s.flushes := by rw [hf]; simp
  have hq : ∀ g, ∀ e' ∈ [Event.flushEnd f.id (flushErr f.errs)], ¬ About g e' := by
    intro g e' he' hab
    rw [List.mem_singleton] at he'; subst he'
    rcases hab with ⟨_, _, h⟩ | ⟨_, h⟩ <;> cases h
  have hnd := h.nodup
  rw [hf] at hnd
  simp only [List.map_append, List.map_cons] at hnd
  have hnd' : ((pre ++ post).map Flush.id).Nodup ∧ f.id ∉ (pre ++ post).map Flush.id := by
    have := (List.perm_middle.nodup_iff).1 hnd
    rw [List.nodup_cons] at this
    simp only [List.map_append]
    exact ⟨this.2, this.1⟩
  have hsub : ∀ F ∈ s'.flushes, F ∈ s.flushes := by
    intro F hF
    rw [hf', List.mem_append] at hF
    rw [hf]
    rcases hF with hF | hF <;> simp [hF]
  refine ⟨by rw [hp, hh, waiting_snoc]; exact h.pend, ?_, ?_, by rw [hf']; exact hnd'.1,
    fun F hF => by rw [hn]; exact h.ids F (hsub F hF), ?_, ?_, ?_⟩
  · intro g
    rw [hh, hn, List.mem_append, List.mem_singleton, h.begun g]
    simp
  · intro g e he hab
    rw [hn]
    rw [hh, List.mem_append] at he
    rcases he with he | he
    · exact h.about g e he hab
    · exact absurd hab (hq g e he)
  · intro F hF
    obtain ⟨h1, h2⟩ := h.running F (hsub F hF)
    rw [hh]
    exact ⟨h1.append ((h.begun _).2 (h.ids F (hsub F hF))) (hq _),
      by rw [errorsOf_append, errorsOf_other (hq _), List.append_nil]; exact h2⟩
  · intro g err hm
    rw [hh, List.mem_append, List.mem_singleton] at hm
    rw [hn, hf', hh]
    rcases hm with hm | hm
    · obtain ⟨h1, h2, h3, h4⟩ := h.ended g err hm
      refine ⟨h1, ?_, h3.append ((h.begun _).2 h1) (hq _),
        by rw [errorsOf_append, errorsOf_other (hq _), List.append_nil]; exact h4⟩
      intro hg
      obtain ⟨F, hF, rfl⟩ := List.mem_map.1 hg
      exact h2 (List.mem_map.2 ⟨F, hsub F (by rw [hf']; exact hF), rfl⟩)
    · injection hm with hg he
      subst hg he
      obtain ⟨h1, h2⟩ := h.running f hfm
      rw [hr] at h1
      refine ⟨h.ids f hfm, hnd'.2, h1.append ((h.begun _).2 (h.ids f hfm)) (hq _), ?_⟩
      rw [errorsOf_append, errorsOf_other (hq _), List.append_nil, ← h2]
  · intro g hlt
    rw [hn] at hlt
    rw [hf', hh]
    by_cases hg : g = f.id
    · exact .inr ⟨flushErr f.errs, by simp [hg]⟩
    · rcases h.alive g hlt with h1 | ⟨err, h1⟩
      · left
        rw [hf] at h1
        simp only [List.map_append, List.map_cons, List.mem_append, List.mem_cons] at h1 ⊢
        rcases h1 with h1 | h1 | h1
        · exact .inl h1
        · exact absurd h1 hg
        · exact .inr h1
      · exact .inr ⟨err, by simp [h1]⟩

theorem FlushInv.congr {s s' : State} (h : FlushInv s) (hp : s'.pending = s.pending) (hf : s'.flushes = s.flushes)
    (hn : s'.nextFlush = s.nextFlush) (hh : s'.history = s.history) : FlushInv s' := by
  obtain ⟨h1, h2, h3, h4, h5, h6, h7, h8⟩ := h
  exact ⟨by rw [hp, hh]; exact h1, by rw [hh, hn]; exact h2, by rw [hh, hn]; exact h3, by rw [hf]; exact h4,
    by rw [hf, hn]; exact h5, by rw [hf, hh]; exact h6, by rw [hf, hh, hn]; exact h7, by rw [hf, hh, hn]; exact h8⟩

theorem flush_inv {cfg : Cfg} {s : State} (h : Reachable cfg s) : FlushInv s := by
  induction h with
  | init => exact ⟨⟨by simp [AMap.keys], by simp [waiting]⟩, by simp, by simp, by simp, by simp, by simp, by simp, by simp⟩
  | @step s s' _ hs ih =>
    have noA : ∀ (e : Event), (∀ f d err, e ≠ .send f d err) → (∀ f lost, e ≠ .timeout f lost) → ∀ f, ¬ About f e := by
      rintro e h1 h2 f (⟨d, err, h⟩ | ⟨lost, h⟩)
      · exact h1 _ _ _ h
      · exact h2 _ _ h
    cases hs with
    | collect d =>
      cases collect_cases cfg s d with
      | refused _ _ h3 =>
        exact ih.quiet (by rw [h3]; simp only [waiting_snoc]; exact ih.pend) (by rw [h3]) (by rw [h3])
          (.collect d .refused (some .stopped)) (by rw [h3]) (noA _ (by simp) (by simp)) (by simp) (by simp)
      | dropped h1 h2 h3 h4 h5 h6 h7 h8 h9 h10 =>
        exact ih.quiet (by rw [h5, h7, waiting_snoc]; exact ⟨by simp [AMap.keys], by simp⟩) h9 h10 _ h7
          (noA _ (by simp) (by simp)) (by simp) (by simp)
      | queued h1 h2 h3 h4 h5 h6 h7 h8 h9 =>
        exact ih.quiet (by rw [h4, h6, waiting_snoc]; exact ih.pend.enqueue d) h8 h9 _ h6
          (noA _ (by simp) (by simp)) (by simp) (by simp)
    | flush => exact ih.flushBegin
    | tick _ => exact ih.flushBegin.congr rfl rfl rfl rfl
    | send f pre post d bef aft err hf hr =>
      refine ih.sends f pre post hf [.send f.id d err] (bef ++ aft) _ rfl rfl rfl rfl ?_ ?_ ?_
      · intro e he; rw [List.mem_singleton] at he; exact .inl ⟨_, _, he⟩
      · simp [errorsOf]
      · intro _
        rw [hr]
        simp only [Chunked.sends, List.filterMap_cons, List.filterMap_nil, if_true]
        exact (List.perm_middle (l₁ := bef) (l₂ := aft)).symm
    | sendTimeout f pre post d bef aft err _ hf hr =>
      refine ih.sends f pre post hf [.send f.id d err, .timeout f.id (bef ++ aft)] [] _ rfl rfl rfl rfl ?_ ?_ ?_
      · intro e he
        simp only [List.mem_cons, List.not_mem_nil, or_false] at he
        rcases he with he | he
        · exact .inl ⟨_, _, he⟩
        · exact .inr ⟨_, he⟩
      · simp [errorsOf]
      · intro ht
        exact absurd (by simp) (ht (bef ++ aft))
    | flushEnd f pre post hf hr _ => exact ih.flushEnd f pre post hf hr rfl rfl rfl rfl
    | bgFlushEnd f pre post hf hr _ => exact ih.flushEnd f pre post hf hr rfl rfl rfl rfl
    | store e _ =>
      exact ih.quiet (by simp only [waiting_snoc]; exact ih.pend) rfl rfl (.stored e) rfl (noA _ (by simp) (by simp)) (by simp) (by simp)
    | exit _ _ => exact ih.congr rfl rfl rfl rfl
    | stop =>
      simp only [State.stop]
      split
      · exact ih.quiet (by simp only [waiting_snoc]; exact ih.pend) rfl rfl .stop rfl (noA _ (by simp) (by simp)) (by simp) (by simp)
      · exact ih.quiet (by simp only [waiting_snoc]; exact ih.pend) rfl rfl .stopPanic rfl (noA _ (by simp) (by simp)) (by simp) (by simp)

end Appdash.Chunked
