import Verif.Spec.EndToEnd
import Verif.Proofs.Causal
import Verif.Properties.Store
import Verif.Properties.Recorder
import Verif.Properties.Event
import Verif.Proofs.EventSpan
import Verif.Proofs.Chunked
import Verif.Proofs.HeaderSlices

/-!
# Recorders, store and events together
-/

namespace Appdash
open Spec

theorem proper_calls {r : Recording} {id : SpanID} (h : r.Proper id) :
    r.calls id = [(id, r.before.flatMap eventAnnotations)] := by
  have hall : ∀ op ∈ r.before ++ r.after, op = .errors ∨ ∃ as, op = .event (.ok as) := by
    intro op hop
    rcases List.mem_append.1 hop with hop | hop
    · exact h.first op hop
    · exact h.rest op hop
  have hfin : ∀ l : List RecOp, (∀ op ∈ l, op = .errors ∨ ∃ as, op = RecOp.event (.ok as)) → l.any isFinish = false := by
    intro l hl
    rw [List.any_eq_false]
    intro op hop
    rcases hl op hop with rfl | ⟨as, rfl⟩ <;> simp [isFinish]
  refine recorder_once r.env r.logger id r.before r.after ?_ ?_ (hfin _ h.first) (hfin _ h.rest) (h.accepted _)
  · intro as hm
    rcases hall _ hm with h | ⟨_, h⟩ <;> cases h
  · intro err hm
    rcases hall _ hm with h | ⟨_, h⟩ <;> cases h

theorem proper_events {reg : Registry} (hreg : registerAll libraryEvents [] = some reg) {r : Recording} {id : SpanID} (h : r.Proper id) :
    ∃ out, unmarshalEvents reg (r.before.flatMap eventAnnotations) = some (out, none) ∧ AreEvents r.events out := by
  have h2 : (r.before.filterMap recordedBy).flatten = r.before.flatMap eventAnnotations := by
    have := h.first
    revert this
    generalize r.before = bs
    intro hf
    induction bs with
    | nil => rfl
    | cons op bs ih =>
      have := ih fun x hx => hf x (List.mem_cons_of_mem _ hx)
      rcases hf op List.mem_cons_self with rfl | ⟨as, rfl⟩
      · rw [List.filterMap_cons_none (by rfl), this, List.flatMap_cons]
        rfl
      · rw [List.filterMap_cons_some (by rfl), List.flatten_cons, this, List.flatMap_cons]
        rfl
  rw [← h2]
  exact library_events_roundtrip reg hreg r.events _ h.recorded (fun e he => (h.library e he).1) (fun e he => (h.library e he).2) h.types
    h.notBoth

theorem perm_map_entry {ids : List SpanID} (hn : (ids.map SpanID.span).Nodup) (f : SpanID → List Annotation) {L : List Entry}
    (hL : L.Perm (ids.map fun i => (i, f i))) {i : SpanID} (hi : i ∈ ids) : annotationsOf L i.span = f i := by
  have hLn : (L.map fun e => e.1.span).Nodup := by
    refine ((hL.map fun e : Entry => e.1.span).nodup_iff).2 ?_
    rw [List.map_map]
    exact hn
  have hm : (i, f i) ∈ L := hL.mem_iff.2 (List.mem_map.2 ⟨i, hi, rfl⟩)
  clear hL hn
  induction L with
  | nil => cases hm
  | cons e L ih =>
    rw [List.map_cons, List.nodup_cons] at hLn
    rw [annotationsOf]
    have hrest : ∀ (L : List Entry) (s : ID), s ∉ L.map (fun e => e.1.span) → annotationsOf L s = [] := by
      intro L s hs
      induction L with
      | nil => rfl
      | cons e L ih =>
        rw [List.map_cons, List.mem_cons, not_or] at hs
        rw [annotationsOf, if_neg (Ne.symm hs.1), ih hs.2]
        rfl
    rcases List.mem_cons.1 hm with rfl | hm
    · rw [hrest L _ hLn.1]
      simp
    · have : e.1.span ≠ i.span := fun he => hLn.1 (he ▸ List.mem_map.2 ⟨_, hm, rfl⟩)
      rw [if_neg this, ih hLn.2 hm]
      rfl

/-- Calls for the spans of a causal tree that give the annotations `f`. -/
theorem annotated_view {ops : List StoreOp} {ms : MemStore} (h : MemStore.new.run ops = some ms) {tr : Tree} (hc : CausalTree tr)
    (f : SpanID → List Annotation) (hknown : ∀ e ∈ live tr.span.id.trace ops, ∃ sp ∈ tr.spans, e.1 = sp.id)
    (hcomplete : ∀ sp ∈ tr.spans, ∃ e ∈ live tr.span.id.trace ops, e.1 = sp.id)
    (hann : ∀ sp ∈ tr.spans, annotationsOf (live tr.span.id.trace ops) sp.id.span = f sp.id) :
    ∃ tr', ms.view tr.span.id.trace = .found tr' ∧ TreeEquiv tr' (reannotate f tr) ∧
      ∀ sp ∈ tr'.spans, (∃ sp' ∈ tr.spans, sp'.id = sp.id) ∧ sp.annotations = f sp.id := by
  have hR : Reports (live (reannotate f tr).span.id.trace ops) (reannotate f tr) := by
    rw [reannotate_span]
    refine ⟨?_, ?_, ?_⟩
    · intro e he
      obtain ⟨sp, hsp, ee⟩ := hknown e he
      exact ⟨{ sp with annotations := f sp.id }, by rw [reannotate_spans]; exact List.mem_map_of_mem hsp, ee⟩
    · intro sp hsp
      rw [reannotate_spans] at hsp
      obtain ⟨sp', hsp', rfl⟩ := List.mem_map.1 hsp
      exact hcomplete sp' hsp'
    · intro sp hsp
      rw [reannotate_spans] at hsp
      obtain ⟨sp', hsp', rfl⟩ := List.mem_map.1 hsp
      have := hann sp' hsp'
      rw [annotationsOf_flatMap] at this
      have e2 : ((live tr.span.id.trace ops).flatMap fun e => if e.1 = sp'.id then e.2 else []) = f sp'.id := by
        rw [← this]
        apply List.flatMap_congr
        intro e he
        obtain ⟨a, ha, ea⟩ := hknown e he
        by_cases hh : e.1.span = sp'.id.span
        · rw [if_pos hh, if_pos (by rw [ea] at hh ⊢; rw [span_unique hc.distinct ha hsp' hh])]
        · rw [if_neg hh, if_neg (fun x => hh (by rw [x]))]
      exact List.Perm.of_eq e2
  obtain ⟨tr', h2, h3⟩ := causal_view h (hc.reannotate f) hR
  rw [reannotate_span] at h2
  refine ⟨tr', h2, h3, ?_⟩
  intro sp hsp
  have hpar := (span_under_declared_parent h h2).2 sp hsp
  rcases trace_finite_tree h tr.span.id.trace with ⟨-, hn⟩ | ⟨-, tr2, q1, -, q3⟩
  · have h2' : ms.view tr.span.id.trace = .found tr' := h2
    rw [hn] at h2'
    cases h2'
  · have h2' : ms.view tr.span.id.trace = .found tr' := h2
    rw [q1] at h2'
    cases h2'
    obtain ⟨ht, e, he, hes⟩ := q3 sp hsp
    have hdp := (declaredParent_of_consistent (L := live tr.span.id.trace ops) (by
      intro e he e' he' ee
      obtain ⟨a, ha, ea⟩ := hknown e he
      obtain ⟨b, hb, eb⟩ := hknown e' he'
      rw [ea, eb] at ee ⊢
      rw [span_unique hc.distinct ha hb ee]) sp.id.span sp.id.parent).1 hpar.1
    obtain ⟨e', he', h5, h6⟩ := hdp
    obtain ⟨a, ha, ea⟩ := hknown e' he'
    have hid : a.id = sp.id := by
      have h7 : a.id.trace = sp.id.trace := by
        rw [ht, ← ea]
        exact live_trace _ ops e' he'
      rw [ea] at h5 h6
      cases ha' : a.id with
      | mk t s p =>
        cases hs' : sp.id with
        | mk t' s' p' =>
          rw [ha', hs'] at h7
          rw [ha', hs'] at h5
          rw [ha', hs'] at h6
          simp_all
    refine ⟨⟨a, ha, hid⟩, ?_⟩
    rw [annotations_complete h h2 sp hsp, ← hid]
    exact hann a ha

/-- The calls of the recorders, each once and in any order, give the causal tree with the annotations of the recorders, exactly. -/
theorem recordings_view {ops : List StoreOp} {ms : MemStore} (h : MemStore.new.run ops = some ms) {tr : Tree} (hc : CausalTree tr)
    (f : SpanID → List Annotation) (hL : (live tr.span.id.trace ops).Perm (tr.spans.map fun sp => (sp.id, f sp.id))) :
    ∃ tr', ms.view tr.span.id.trace = .found tr' ∧ TreeEquiv tr' (reannotate f tr) ∧
      ∀ sp ∈ tr'.spans, (∃ sp' ∈ tr.spans, sp'.id = sp.id) ∧ sp.annotations = f sp.id := by
  have hids : (tr.spans.map fun sp => (sp.id, f sp.id)) = (tr.spans.map Span.id).map fun i => (i, f i) := by rw [List.map_map]; rfl
  have hnd : ((tr.spans.map Span.id).map SpanID.span).Nodup := by rw [List.map_map]; exact hc.distinct
  refine annotated_view h hc f ?_ ?_ fun sp hsp => perm_map_entry hnd f (hids ▸ hL) (List.mem_map.2 ⟨sp, hsp, rfl⟩)
  · intro e he
    obtain ⟨sp, hsp, rfl⟩ := List.mem_map.1 (hL.mem_iff.1 he)
    exact ⟨sp, hsp, rfl⟩
  · intro sp hsp
    exact ⟨_, hL.mem_iff.2 (List.mem_map.2 ⟨sp, hsp, rfl⟩), rfl⟩

/-- The calls of the recorders, each at least once and in any order: the annotations are repeated as often as the call. -/
theorem repeated_view {ops : List StoreOp} {ms : MemStore} (h : MemStore.new.run ops = some ms) {tr : Tree} (hc : CausalTree tr)
    (f : SpanID → List Annotation) (hL : ∀ e, e ∈ live tr.span.id.trace ops ↔ e ∈ tr.spans.map fun sp => (sp.id, f sp.id)) :
    ∃ tr', ms.view tr.span.id.trace = .found tr' ∧
      TreeEquiv tr' (reannotate (fun id => (List.replicate ((live tr.span.id.trace ops).countP fun e => e.1 = id) (f id)).flatten) tr) ∧
      ∀ sp ∈ tr'.spans, (∃ sp' ∈ tr.spans, sp'.id = sp.id) ∧
        sp.annotations = (List.replicate ((live tr.span.id.trace ops).countP fun e => e.1 = sp.id) (f sp.id)).flatten := by
  refine annotated_view h hc (fun id => (List.replicate ((live tr.span.id.trace ops).countP fun e => e.1 = id) (f id)).flatten) ?_ ?_ ?_
  · intro e he
    obtain ⟨sp, hsp, rfl⟩ := List.mem_map.1 ((hL e).1 he)
    exact ⟨sp, hsp, rfl⟩
  · intro sp hsp
    exact ⟨_, (hL _).2 (List.mem_map.2 ⟨sp, hsp, rfl⟩), rfl⟩
  · intro sp hsp
    have hk : ∀ e ∈ live tr.span.id.trace ops, ∃ sp ∈ tr.spans, e = (sp.id, f sp.id) := by
      intro e he
      obtain ⟨sp, hsp, rfl⟩ := List.mem_map.1 ((hL e).1 he)
      exact ⟨sp, hsp, rfl⟩
    clear hL
    revert hk
    generalize live tr.span.id.trace ops = L
    intro hk
    induction L with
    | nil => rfl
    | cons e L ih =>
      obtain ⟨sp', hsp', rfl⟩ := hk e List.mem_cons_self
      rw [annotationsOf, ih fun e he => hk e (List.mem_cons_of_mem _ he), List.countP_cons]
      by_cases hh : sp'.id.span = sp.id.span
      · rw [span_unique hc.distinct hsp' hsp hh]
        simp [List.replicate_succ]
      · have : sp'.id ≠ sp.id := fun x => hh (by rw [x])
        simp [hh, this]

/-! ## Repeated annotations -/

theorem foldl_set_keys (as : List Annotation) : ∀ m : AMap Bytes Bytes, (∀ a ∈ as, a.key ∈ m.keys) →
    (as.foldl (fun m a => AMap.set m a.key a.valueString) m).keys = m.keys := by
  induction as with
  | nil => intro m _; rfl
  | cons a as ih =>
    intro m h
    have hk : (AMap.set m a.key a.valueString).keys = m.keys := by
      have := h a List.mem_cons_self
      clear h ih
      induction m with
      | nil => cases this
      | cons p m ih =>
        obtain ⟨k, v⟩ := p
        by_cases hp : k = a.key
        · simp [AMap.set, AMap.keys, hp]
        · have : a.key ∈ AMap.keys m := by
            rcases List.mem_cons.1 this with h | h
            · exact absurd h.symm hp
            · exact h
          simp only [AMap.set, if_neg hp, AMap.keys, List.map_cons] at ih ⊢
          rw [ih this]
    rw [List.foldl_cons, ih _ fun b hb => by rw [hk]; exact h b (List.mem_cons_of_mem _ hb), hk]

theorem mem_keys_of_get {m : AMap Bytes Bytes} {k v : Bytes} (h : m.get k = some v) : k ∈ m.keys := by
  induction m with
  | nil => cases h
  | cons p m ih =>
    obtain ⟨a, b⟩ := p
    by_cases hp : a = k
    · simp [AMap.keys, hp]
    · simp only [AMap.get, if_neg hp] at h
      exact List.mem_cons_of_mem _ (ih h)

theorem stringMap_repeat (as : List Annotation) : ∀ n, stringMap (List.replicate (n + 1) as).flatten = stringMap as := by
  have hkeys : ∀ a ∈ as, a.key ∈ (stringMap as).keys := by
    intro a ha
    cases hg : AMap.get (stringMap as) a.key with
    | none =>
      rw [stringMap_get, Option.map_eq_none_iff, List.find?_eq_none] at hg
      exact absurd (decide_eq_true rfl) (hg a (List.mem_reverse.2 ha))
    | some v => exact mem_keys_of_get hg
  intro n
  induction n with
  | zero => simp
  | succ n ih =>
    have e : (List.replicate (n + 1 + 1) as).flatten = (List.replicate (n + 1) as).flatten ++ as := by
      rw [List.replicate_succ', List.flatten_append, List.flatten_singleton]
    have hk : (stringMap (List.replicate (n + 1 + 1) as).flatten).keys = (stringMap as).keys := by
      rw [e]
      unfold stringMap at ih hkeys ⊢
      rw [List.foldl_append, ih, foldl_set_keys as _ hkeys]
    refine AMap.ext_get (stringMap_keys_nodup _) hk fun k => ?_
    rw [e, stringMap_get, stringMap_get, List.reverse_append, List.find?_append]
    cases hf : as.reverse.find? fun a => a.key = k with
    | some a => rfl
    | none =>
      rw [Option.none_or, Option.map_none, Option.map_eq_none_iff, List.find?_eq_none]
      rw [List.find?_eq_none] at hf
      intro a ha
      rw [List.mem_reverse, List.mem_flatten] at ha
      obtain ⟨l, hl, ha⟩ := ha
      rw [(List.mem_replicate.1 hl).2] at ha
      exact hf a (List.mem_reverse.2 ha)

theorem schemas_repeat (as : List Annotation) (n : Nat) :
    schemas (List.replicate n as).flatten = (List.replicate n (schemas as)).flatten := by
  induction n with
  | zero => rfl
  | succ n ih => rw [List.replicate_succ, List.flatten_cons, schemas_append, ih, List.replicate_succ, List.flatten_cons]

theorem unmarshalLoop_prefix (reg : Registry) (as : List Annotation) : ∀ (ss : List Bytes) (evs out : List (Bytes × GVal))
    (err : Option EventErr), unmarshalLoop reg as ss evs = some (out, err) → evs <+: out := by
  intro ss
  induction ss with
  | nil =>
    intro evs out err h
    simp only [unmarshalLoop, Option.some.injEq, Prod.mk.injEq] at h
    exact h.1 ▸ List.prefix_refl _
  | cons s ss ih =>
    intro evs out err h
    rw [unmarshalLoop] at h
    split at h
    · exact ih _ _ _ h
    · split at h
      · cases h
      · cases h
        exact List.prefix_refl _
      · exact (List.prefix_append _ _).trans (ih _ _ _ h)

theorem unmarshalLoop_same {reg : Registry} {as bs : List Annotation} (hu : ∀ s E, AMap.get reg s = some E → E.unmarshaler = none)
    (hs : ∀ s, (schemas bs).contains s = (schemas as).contains s) (hm : stringMap bs = stringMap as) (rest : List Bytes) :
    ∀ (ss : List Bytes) (out evs acc : List (Bytes × GVal)), unmarshalLoop reg as ss acc = some (acc ++ out, none) →
      unmarshalLoop reg bs (ss ++ rest) evs = unmarshalLoop reg bs rest (evs ++ out) := by
  intro ss
  induction ss with
  | nil =>
    intro out evs acc h
    simp only [unmarshalLoop, Option.some.injEq, Prod.mk.injEq, and_true] at h
    have : out = [] := by simpa using h
    simp [this]
  | cons s ss ih =>
    intro out evs acc h
    simp only [List.cons_append, unmarshalLoop] at h ⊢
    cases hg : AMap.get reg s with
    | none =>
      simp only [hg] at h ⊢
      exact ih out evs acc h
    | some E =>
      simp only [hg] at h ⊢
      by_cases hc : (schemas as).contains E.schema = false
      · rw [unmarshalEvent, if_pos hc] at h
        simp at h
      · have hc' : ¬ (schemas bs).contains E.schema = false := by rw [hs]; exact hc
        rw [unmarshalEvent, if_neg hc, hu s E hg] at h
        rw [unmarshalEvent, if_neg hc', hu s E hg, hm]
        cases hx : unflatten E.type [] E.type.zero (mapToKVs (stringMap as)) with
        | none => simp [hx] at h
        | some r =>
          obtain ⟨v, x, y⟩ := r
          simp only [hx] at h ⊢
          obtain ⟨out', rfl⟩ : ∃ out', out = (s, v) :: out' := by
            have hpre := unmarshalLoop_prefix reg as ss (acc ++ [(s, v)]) _ _ h
            obtain ⟨t, ht⟩ := hpre
            exact ⟨t, by simpa using ht.symm⟩
          have := ih out' (evs ++ [(s, v)]) (acc ++ [(s, v)]) (by simpa using h)
          simpa using this

theorem library_no_unmarshaler {reg : Registry} (hreg : registerAll libraryEvents [] = some reg) {s : Bytes} {E : EventType}
    (h : AMap.get reg s = some E) : E.unmarshaler = none := by
  have e : registerAll libraryEvents [] = some (libraryEvents.map fun e => (e.schema, e)) := rfl
  rw [e, Option.some.injEq] at hreg
  subst hreg
  obtain ⟨pre, post, hm, -⟩ := AMap.set_some h
  have hmem : (s, E) ∈ libraryEvents.map fun e => (e.schema, e) := by rw [hm]; simp
  obtain ⟨E', hE', hh⟩ := List.mem_map.1 hmem
  cases hh
  simp only [libraryEvents, List.mem_cons, List.not_mem_nil, or_false] at hE'
  rcases hE' with rfl | rfl | rfl | rfl | rfl | rfl | rfl | rfl <;> rfl

/-- Annotations that arrived several times give each event as often. -/
theorem unmarshalEvents_repeat {reg : Registry} (hreg : registerAll libraryEvents [] = some reg) {as : List Annotation}
    {out : List (Bytes × GVal)} (h : unmarshalEvents reg as = some (out, none)) (n : Nat) :
    unmarshalEvents reg (List.replicate n as).flatten = some ((List.replicate n out).flatten, none) := by
  cases n with
  | zero => rfl
  | succ n =>
    have hs : ∀ s, (schemas (List.replicate (n + 1) as).flatten).contains s = (schemas as).contains s := by
      intro s
      rw [Bool.eq_iff_iff, schemas_repeat]
      simp
    have key : ∀ (k : Nat) (evs : List (Bytes × GVal)),
        unmarshalLoop reg (List.replicate (n + 1) as).flatten (List.replicate k (schemas as)).flatten evs =
          some (evs ++ (List.replicate k out).flatten, none) := by
      intro k
      induction k with
      | zero => intro evs; simp [unmarshalLoop]
      | succ k ih =>
        intro evs
        rw [List.replicate_succ (n := k), List.flatten_cons (l := schemas as),
          unmarshalLoop_same (fun s E => library_no_unmarshaler hreg) hs (stringMap_repeat as n) _ (schemas as) out evs []
            (by simpa [unmarshalEvents] using h), ih]
        simp [List.replicate_succ]
    rw [unmarshalEvents, schemas_repeat, key]
    simp

mutual

theorem treeEquiv_reannotate (f : SpanID → List Annotation) {t u : Tree} (h : TreeEquiv t u) :
    TreeEquiv (reannotate f t) (reannotate f u) := by
  match h with
  | .node (s := s) (s' := s') h1 h2 h3 =>
    rw [reannotate, reannotate]
    exact .node h1 (by rw [h1]) (forestEquiv_reannotate f h3)

theorem forestEquiv_reannotate (f : SpanID → List Annotation) {ts us : List Tree} (h : ForestEquiv ts us) :
    ForestEquiv (reannotateList f ts) (reannotateList f us) := by
  match h with
  | .nil => exact .nil
  | .cons (us := us) (us' := us') h1 h2 =>
    have a := forestEquiv_reannotate f h2
    simp only [reannotateList_map, List.map_append, List.map_cons] at a ⊢
    exact .cons (treeEquiv_reannotate f h1) a

end

mutual

theorem reannotate_twice (f g : SpanID → List Annotation) : ∀ t : Tree, reannotate f (reannotate g t) = reannotate f t
  | .node s ts => by simp [reannotate, reannotateList_twice f g ts]

theorem reannotateList_twice (f g : SpanID → List Annotation) : ∀ ts : List Tree,
    reannotateList f (reannotateList g ts) = reannotateList f ts
  | [] => rfl
  | t :: ts => by simp [reannotateList, reannotate_twice f g t, reannotateList_twice f g ts]

end

end Appdash
