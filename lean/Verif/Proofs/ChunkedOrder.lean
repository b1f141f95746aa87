import Verif.Spec.ChunkedOrder
import Verif.Proofs.ChunkedFlush
import Verif.Proofs.ChunkedOnce

/-! # Order of annotations -/

namespace Appdash.Chunked

theorem annotationsOf_append (id : SpanID) (a b : List Delivery) : annotationsOf id (a ++ b) = annotationsOf id a ++ annotationsOf id b := by
  simp [annotationsOf]

theorem annotationsOf_cons (id : SpanID) (d : Delivery) (a : List Delivery) :
    annotationsOf id (d :: a) = (if d.1 = id then d.2 else []) ++ annotationsOf id a := by
  by_cases h : d.1 = id <;> simp [annotationsOf, h]

/-- An entry can be taken out of a map first. -/
theorem annotationsOf_pick (id : SpanID) {d : Delivery} {a b : List Delivery} (h : ((a ++ d :: b).map Prod.fst).Nodup) :
    annotationsOf id (a ++ d :: b) = annotationsOf id [d] ++ annotationsOf id (a ++ b) := by
  rw [annotationsOf_append, annotationsOf_append, annotationsOf_cons, annotationsOf_cons]
  by_cases hd : d.1 = id
  · have : id ∉ a.map Prod.fst := by
      rw [List.map_append, List.map_cons, List.nodup_append] at h
      intro hm
      exact h.2.2 id hm id (by simp [hd]) rfl
    rw [annotationsOf_absent this]
    simp [annotationsOf]
  · simp [hd, annotationsOf]

theorem annotationsOf_enqueue (id : SpanID) {m : AMap SpanID (List Annotation)} (hn : (m.map Prod.fst).Nodup) (d : Delivery) :
    annotationsOf id (enqueue m d) = annotationsOf id m ++ annotationsOf id [d] := by
  unfold enqueue
  cases hg : m.get d.1 with
  | none =>
    simp only [AMap.set_none hg]
    exact annotationsOf_append id _ _
  | some p =>
    obtain ⟨pre, post, hm, -, hs⟩ := AMap.set_some hg
    simp only
    split
    · rw [hs, hm]
      rw [hm] at hn
      by_cases hid : d.1 = id
      · have habs : id ∉ post.map Prod.fst := by
          rw [List.map_append, List.map_cons, List.nodup_append, List.nodup_cons] at hn
          intro hmm
          exact hn.2.1.1 (by rw [hid]; exact hmm)
        rw [annotationsOf_append, annotationsOf_append, annotationsOf_cons, annotationsOf_cons, annotationsOf_cons,
          annotationsOf_absent habs]
        simp [hid, annotationsOf]
      · rw [annotationsOf_append, annotationsOf_append, annotationsOf_cons, annotationsOf_cons, annotationsOf_cons]
        simp [hid, annotationsOf]
    · rename_i h0
      have : d.2 = [] := List.eq_nil_of_length_eq_zero (by omega)
      by_cases hid : d.1 = id <;> simp [annotationsOf, hid, this]

theorem OneAtATime.prefix {h h' : List Event} (ho : OneAtATime (h ++ h')) : OneAtATime h := by
  intro h1 f h2 e
  exact ho h1 f (h2 ++ h') (by rw [e]; simp)

/-- The invariant. -/
structure OrdInv (s : State) : Prop where
  few : s.flushes.length ≤ 1
  keys : ∀ F ∈ s.flushes, (F.remaining.map Prod.fst).Nodup
  order : ∀ id, (annotationsOf id (deliveredCalls s.history) ++ annotationsOf id (heldCalls s) ++ annotationsOf id s.pending).Sublist
    (annotationsOf id (acceptedCalls s.history))

/-- Events that neither deliver nor accept anything. -/
theorem OrdInv.quiet {s s' : State} (h : OrdInv s) (hf : s'.flushes = s.flushes) (hp : s'.pending = s.pending) {es : List Event}
    (hh : s'.history = s.history ++ es) (h1 : deliveredCalls es = []) (h2 : acceptedCalls es = []) : OrdInv s' := by
  refine ⟨by rw [hf]; exact h.few, by rw [hf]; exact h.keys, fun id => ?_⟩
  have e1 : deliveredCalls s'.history = deliveredCalls s.history := by
    rw [hh, deliveredCalls, List.filterMap_append]
    rw [deliveredCalls] at h1
    rw [h1, List.append_nil, deliveredCalls]
  have e2 : acceptedCalls s'.history = acceptedCalls s.history := by
    rw [hh, acceptedCalls, List.filterMap_append]
    rw [acceptedCalls] at h2
    rw [h2, List.append_nil, acceptedCalls]
  rw [e1, e2, heldCalls, hf, hp]
  exact h.order id

theorem no_flush_running {cfg : Cfg} {s : State} (h : Reachable cfg s) {f : Nat} {es : List Event}
    (ho : OneAtATime (s.history ++ .flushBegin f :: es)) : s.flushes = [] := by
  have inv := flush_inv h
  rw [List.eq_nil_iff_forall_not_mem]
  intro F hF
  obtain ⟨err, he⟩ := ho s.history f es rfl F.id ((inv.begun F.id).2 (inv.ids F hF))
  exact (inv.ended _ _ he).2.1 (List.mem_map.2 ⟨F, hF, rfl⟩)

theorem OrdInv.begin {cfg : Cfg} {s s' : State} (hr : Reachable cfg s) (h : OrdInv s) (ho : OneAtATime s'.history)
    (e1 : s'.history = s.history ++ [.flushBegin s.nextFlush]) (e2 : s'.pending = [])
    (e3 : s'.flushes = s.flushes ++ [{ id := s.nextFlush, remaining := s.pending, errs := [] }]) : OrdInv s' := by
  have h0 : s.flushes = [] := no_flush_running hr (f := s.nextFlush) (es := []) (by rw [← e1]; exact ho)
  refine ⟨by rw [e3, h0]; simp, ?_, fun id => ?_⟩
  · rw [e3, h0]
    intro F hF
    cases List.mem_singleton.1 hF
    exact (flush_inv hr).pend.1
  · have := h.order id
    rw [heldCalls, h0, List.flatMap_nil] at this
    rw [heldCalls, e3, h0, e2, e1]
    simpa [deliveredCalls, acceptedCalls, annotationsOf] using this

theorem OrdInv.ended {s s' : State} (h : OrdInv s) {f : Flush} {pre post : List Flush} {err : Option Err}
    (hf : s.flushes = pre ++ f :: post) (hr : f.remaining = []) (e1 : s'.history = s.history ++ [.flushEnd f.id err])
    (e2 : s'.pending = s.pending) (e3 : s'.flushes = pre ++ post) : OrdInv s' := by
  refine ⟨?_, ?_, fun id => ?_⟩
  · have := h.few
    rw [hf] at this
    rw [e3]
    simp at this ⊢
    omega
  · rw [e3]
    intro F hF
    exact h.keys F (by rw [hf]; simp at hF ⊢; grind)
  · have := h.order id
    rw [heldCalls, hf] at this
    rw [heldCalls, e3, e2, e1]
    simpa [deliveredCalls, acceptedCalls, hr] using this

theorem ord_inv {cfg : Cfg} {s : State} (h : Reachable cfg s) (ho : OneAtATime s.history) : OrdInv s := by
  induction h with
  | init => exact ⟨by simp, by simp, fun id => by simp [deliveredCalls, heldCalls, annotationsOf]⟩
  | @step s s' hr hs ih =>
    cases hs with
    | collect d =>
      cases collect_cases cfg s d with
      | refused _ _ h3 =>
        rw [h3] at ho ⊢
        exact (ih ho.prefix).quiet rfl rfl rfl rfl rfl
      | dropped h1' h2 h3 h4 h5 h6 h7 h8 h9 =>
        rw [h7] at ho
        have i := ih ho.prefix
        refine ⟨by rw [h9]; exact i.few, by rw [h9]; exact i.keys, fun id => ?_⟩
        have := i.order id
        rw [heldCalls, h9, h7, h5]
        rw [heldCalls] at this
        refine List.Sublist.trans ?_ (by simpa [acceptedCalls] using this)
        simp [deliveredCalls, annotationsOf]
      | queued h1' h2 h3 h4 h5 h6 h7 h8 =>
        rw [h6] at ho
        have i := ih ho.prefix
        refine ⟨by rw [h8]; exact i.few, by rw [h8]; exact i.keys, fun id => ?_⟩
        have := i.order id
        have hp : (s.pending.map Prod.fst).Nodup := (flush_inv hr).pend.1
        have ha : acceptedCalls (s.history ++ [.collect d .queued s.lastErr]) = acceptedCalls s.history ++ [d] := by
          simp [acceptedCalls]
        rw [heldCalls, h8, h6, h4, annotationsOf_enqueue id hp, ha, annotationsOf_append, ← List.append_assoc]
        rw [heldCalls] at this
        refine List.Sublist.append ?_ (List.Sublist.refl _)
        simpa [deliveredCalls] using this
    | flush => exact (ih ho.prefix).begin hr ho rfl rfl rfl
    | tick _ => exact (ih ho.prefix).begin hr ho rfl rfl rfl
    | send f pre post d bef aft err hf hrem =>
      have i := ih ho.prefix
      have hl := i.few
      rw [hf] at hl
      have h1 : pre = [] := List.eq_nil_of_length_eq_zero (by simp at hl; omega)
      have h2 : post = [] := List.eq_nil_of_length_eq_zero (by simp at hl; omega)
      subst h1 h2
      have hk := i.keys f (by rw [hf]; simp)
      rw [hrem] at hk
      refine ⟨by simp, ?_, fun id => ?_⟩
      · intro F hF
        cases List.mem_singleton.1 hF
        exact hk.sublist ((List.Sublist.append (List.Sublist.refl bef) (List.sublist_cons_self d aft)).map Prod.fst)
      · have := i.order id
        have hd : deliveredCalls (s.history ++ [.send f.id d err]) = deliveredCalls s.history ++ [d] := by simp [deliveredCalls]
        rw [heldCalls, hf] at this
        simp only [List.nil_append, List.flatMap_cons, List.flatMap_nil, List.append_nil, hrem] at this
        rw [annotationsOf_pick id hk] at this
        simp only [heldCalls, hd, annotationsOf_append id _ [d], List.nil_append, List.flatMap_cons, List.flatMap_nil, List.append_nil]
        simpa [acceptedCalls] using this
    | sendTimeout f pre post d bef aft err _ hf hrem =>
      have i := ih ho.prefix
      have hl := i.few
      rw [hf] at hl
      have h1 : pre = [] := List.eq_nil_of_length_eq_zero (by simp at hl; omega)
      have h2 : post = [] := List.eq_nil_of_length_eq_zero (by simp at hl; omega)
      subst h1 h2
      have hk := i.keys f (by rw [hf]; simp)
      rw [hrem] at hk
      refine ⟨by simp, ?_, fun id => ?_⟩
      · intro F hF
        cases List.mem_singleton.1 hF
        simp
      · have := i.order id
        have hd : deliveredCalls (s.history ++ [.send f.id d err, .timeout f.id (bef ++ aft)]) = deliveredCalls s.history ++ [d] := by
          simp [deliveredCalls]
        rw [heldCalls, hf] at this
        simp only [List.nil_append, List.flatMap_cons, List.flatMap_nil, List.append_nil, hrem] at this
        rw [annotationsOf_pick id hk] at this
        simp only [heldCalls, hd, annotationsOf_append id _ [d], List.nil_append, List.flatMap_cons, List.flatMap_nil, List.append_nil]
        refine List.Sublist.trans ?_ (by simpa [acceptedCalls] using this)
        simp [annotationsOf]
    | flushEnd f pre post hf hrem _ => exact (ih ho.prefix).ended hf hrem rfl rfl rfl
    | bgFlushEnd f pre post hf hrem _ => exact (ih ho.prefix).ended hf hrem rfl rfl rfl
    | store e _ => exact (ih ho.prefix).quiet rfl rfl rfl rfl rfl
    | exit _ _ => exact (ih ho).quiet rfl rfl (List.append_nil _).symm rfl rfl
    | stop =>
      revert ho
      simp only [State.stop]
      split <;>
      · intro ho
        exact (ih ho.prefix).quiet rfl rfl rfl rfl rfl

theorem OneAtATime.snoc {h es : List Event} (ho : OneAtATime h) (hes : ∀ f, .flushBegin f ∉ es) : OneAtATime (h ++ es) := by
  intro h1 f h2 e
  rcases List.append_eq_append_iff.1 e with ⟨as, e1, e2⟩ | ⟨as, e1, e2⟩
  · exact absurd (by rw [e2]; simp) (hes f)
  · cases as with
    | nil =>
      simp at e2
      exact absurd (by rw [← e2]; simp) (hes f)
    | cons a as =>
      simp at e2
      obtain ⟨rfl, -⟩ := e2
      exact ho h1 f as e1

/-- The invariant for executions without calls of `Flush`. -/
structure OwnFlush (s : State) : Prop where
  one : OneAtATime s.history
  running : ∀ F ∈ s.flushes, s.bg = .flushing F.id
  absent : s.started = false → s.bg = .absent

theorem OwnFlush.keep {s s' : State} (h : OwnFlush s) {es : List Event} (hh : s'.history = s.history ++ es) (hes : ∀ f, .flushBegin f ∉ es)
    (hf : s'.flushes = s.flushes) (hb : s'.bg = s.bg ∨ s'.bg ≠ .absent ∧ s.flushes = []) (hs : s'.started = true ∨ s'.started = s.started ∧ s'.bg = s.bg) :
    OwnFlush s' := by
  refine ⟨by rw [hh]; exact h.one.snoc hes, ?_, ?_⟩
  · rw [hf]
    intro F hF
    rcases hb with hb | ⟨-, hb⟩
    · rw [hb]; exact h.running F hF
    · rw [hb] at hF; cases hF
  · intro h0
    rcases hs with hs | ⟨hs, hs'⟩
    · rw [hs] at h0; cases h0
    · rw [hs', h.absent (by rw [← hs]; exact h0)]

/-- Without calls of `Flush`, flushes come one at a time. -/
theorem unflushed_one {cfg : Cfg} {s : State} (h : ReachableUnflushed cfg s) : Reachable cfg s ∧ OwnFlush s := by
  induction h with
  | init => exact ⟨.init, fun h1 f h2 e => by simp at e, by simp, by simp⟩
  | @step s s' _ hs hb ih =>
    obtain ⟨hr, ho⟩ := ih
    refine ⟨hr.step hs, ?_⟩
    have inv := flush_inv hr
    have hcollect : ∀ {s' : State} {e : Event}, s'.history = s.history ++ [e] → (∀ f, e ≠ .flushBegin f) → s'.flushes = s.flushes →
        s'.started = true → (s.started = true → s'.bg = s.bg ∧ s'.stopChan = s.stopChan) →
        (s.started = false → s'.bg = .waiting ∧ s'.stopChan = .opened) → OwnFlush s' := by
      intro s' e h1 h2 h3 h4 h5 h6
      refine ho.keep h1 (fun f hm => h2 f (List.mem_singleton.1 hm).symm) h3 ?_ (.inl h4)
      by_cases hst : s.started = true
      · exact .inl (h5 hst).1
      · have hst : s.started = false := by simpa using hst
        refine .inr ⟨by rw [(h6 hst).1]; simp, ?_⟩
        rw [List.eq_nil_iff_forall_not_mem]
        intro F hF
        have := ho.running F hF
        rw [ho.absent hst] at this
        cases this
    cases hs with
    | collect d =>
      cases collect_cases cfg s d with
      | refused _ _ h3 =>
        rw [h3]
        exact ho.keep rfl (by simp) rfl (.inl rfl) (.inr ⟨rfl, rfl⟩)
      | dropped h1 h2 h3 h4 h5 h6 h7 h8 h9 h10 h11 h12 h13 h14 => exact hcollect h7 (by simp) h9 h12 h13 h14
      | queued h1 h2 h3 h4 h5 h6 h7 h8 h9 h10 h11 h12 h13 => exact hcollect h6 (by simp) h8 h11 h12 h13
    | flush =>
      obtain ⟨h1, h2⟩ := hb (by simp [State.flushBegin])
      have : s.bg = .flushing s.nextFlush := h2
      rw [h1] at this
      cases this
    | tick hw =>
      have h0 : s.flushes = [] := by
        rw [List.eq_nil_iff_forall_not_mem]
        intro F hF
        have := ho.running F hF
        rw [hw] at this
        cases this
      refine ⟨?_, ?_, ?_⟩
      · intro h1 f h2 e
        rcases List.eq_nil_or_concat h2 with rfl | ⟨l, y, rfl⟩
        · have e' : s.history ++ [.flushBegin s.nextFlush] = h1 ++ [.flushBegin f] := e
          obtain ⟨rfl, -⟩ := List.append_inj' e' rfl
          intro g hg
          have hg := (inv.begun g).1 hg
          rcases inv.alive g hg with h | h
          · rw [h0] at h; cases h
          · exact h
        · have e' : s.history ++ [.flushBegin s.nextFlush] = (h1 ++ .flushBegin f :: l) ++ [y] := by
            rw [List.append_assoc, List.cons_append, ← List.concat_eq_append (as := l)]
            exact e
          obtain ⟨e'', -⟩ := List.append_inj' e' rfl
          exact ho.one h1 f l e''
      · intro F hF
        have hF : F ∈ s.flushes ++ [{ id := s.nextFlush, remaining := s.pending, errs := [] }] := hF
        rw [h0, List.nil_append, List.mem_singleton] at hF
        rw [hF]
      · intro hst
        have := ho.absent hst
        rw [hw] at this
        cases this
    | send f pre post d bef aft err hf hrem =>
      refine ⟨ho.one.snoc (by simp), ?_, ho.absent⟩
      intro F hF
      have hF : F ∈ pre ++ { f with remaining := bef ++ aft, errs := f.errs ++ err.toList } :: post := hF
      rw [List.mem_append, List.mem_cons] at hF
      rcases hF with hF | rfl | hF
      · exact ho.running F (by rw [hf]; simp [hF])
      · exact ho.running f (by rw [hf]; simp)
      · exact ho.running F (by rw [hf]; simp [hF])
    | sendTimeout f pre post d bef aft err _ hf hrem =>
      refine ⟨ho.one.snoc (by simp), ?_, ho.absent⟩
      intro F hF
      have hF : F ∈ pre ++ { f with remaining := [], errs := f.errs ++ err.toList ++ [.queueDropped] } :: post := hF
      rw [List.mem_append, List.mem_cons] at hF
      rcases hF with hF | rfl | hF
      · exact ho.running F (by rw [hf]; simp [hF])
      · exact ho.running f (by rw [hf]; simp)
      · exact ho.running F (by rw [hf]; simp [hF])
    | flushEnd f pre post hf hrem hne =>
      refine ⟨ho.one.snoc (by simp), ?_, ho.absent⟩
      intro F hF
      have hF : F ∈ pre ++ post := hF
      exact ho.running F (by rw [hf]; simp at hF ⊢; grind)
    | bgFlushEnd f pre post hf hrem hbg =>
      refine ⟨ho.one.snoc (by simp), ?_, ?_⟩
      · intro F hF
        have hF : F ∈ pre ++ post := hF
        have h1 := ho.running F (by rw [hf]; simp at hF ⊢; grind)
        have hn := inv.nodup
        rw [hf, List.map_append, List.map_cons] at hn
        rw [hbg] at h1
        have hid : f.id = F.id := by injection h1
        exfalso
        rw [List.nodup_append, List.nodup_cons] at hn
        rcases List.mem_append.1 hF with hF | hF
        · exact hn.2.2 F.id (List.mem_map.2 ⟨F, hF, rfl⟩) _ List.mem_cons_self hid.symm
        · exact hn.2.1.1 (List.mem_map.2 ⟨F, hF, hid.symm⟩)
      · intro hst
        have := ho.absent hst
        rw [hbg] at this
        cases this
    | store e hbg =>
      refine ⟨ho.one.snoc (by simp), ?_, ?_⟩
      · intro F hF
        have := ho.running F hF
        rw [hbg] at this
        cases this
      · intro hst
        have := ho.absent hst
        rw [hbg] at this
        cases this
    | exit hbg _ =>
      refine ⟨ho.one, ?_, ?_⟩
      · intro F hF
        have := ho.running F hF
        rw [hbg] at this
        cases this
      · intro hst
        have := ho.absent hst
        rw [hbg] at this
        cases this
    | stop =>
      simp only [State.stop]
      split <;> exact ho.keep rfl (by simp) rfl (.inl rfl) (.inr ⟨rfl, rfl⟩)

end Appdash.Chunked
