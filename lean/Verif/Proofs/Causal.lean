import Verif.Spec.Causal
import Verif.Proofs.StoreTraces
import Verif.Proofs.StoreView
import Verif.Proofs.Upload
import Verif.Proofs.Chunked

/-!
# Helper lemmas about causal trees
-/

namespace Appdash
open Spec

theorem mem_spansList {ts : List Tree} {sp : Span} : sp ∈ Tree.spansList ts ↔ ∃ c ∈ ts, sp ∈ c.spans := by
  induction ts with
  | nil => simp [Tree.spansList]
  | cons t ts ih => simp [Tree.spansList, ih]

theorem Spec.Subtree.spans_mem {u tr : Tree} (h : Subtree u tr) {sp : Span} (hs : sp ∈ u.spans) : sp ∈ tr.spans := by
  induction h with
  | refl => exact hs
  | @child c x h hc ih =>
    cases x with
    | node s ts =>
      simp only [Tree.spans, List.mem_cons, mem_spansList]
      exact Or.inr ⟨c, hc, ih⟩

theorem Spec.Subtree.edges_mem {u tr : Tree} (h : Subtree u tr) {e : Span × Span} (hs : e ∈ u.edges) : e ∈ tr.edges := by
  induction h with
  | refl => exact hs
  | @child c x h hc ih =>
    cases x with
    | node s ts =>
      simp only [Tree.edges, List.mem_append, edgesList_mem]
      exact Or.inr ⟨c, hc, ih⟩

theorem Spec.Subtree.trans {a b c : Tree} (h1 : Subtree a b) (h2 : Subtree b c) : Subtree a c := by
  induction h2 with
  | refl => exact h1
  | child _ hc ih => exact .child ih hc

/-- With distinct span IDs, `FindSpan` finds every subtree. -/
theorem findSpan_of_subtree {u tr : Tree} (h : Subtree u tr) (hn : (tr.spans.map fun sp => sp.id.span).Nodup) :
    tr.findSpan u.span.id.span = some u := by
  induction h with
  | refl => cases u; simp [Tree.findSpan, Tree.span]
  | @child c x h hc ih =>
    cases x with
    | node s ts =>
      simp only [Tree.sub] at hc
      simp only [Tree.spans, List.map_cons, List.nodup_cons] at hn
      obtain ⟨h1, h2⟩ := hn
      have hmem : u.span ∈ c.spans := h.spans_mem (span_mem_spans u)
      have hne : s.id.span ≠ u.span.id.span := by
        intro e
        exact h1 (by rw [e]; exact List.mem_map_of_mem (mem_spansList.2 ⟨c, hc, hmem⟩))
      simp only [Tree.findSpan, hne, if_false]
      clear h1 hne
      induction ts with
      | nil => cases hc
      | cons y ys ihx =>
        simp only [Tree.spansList, List.map_append, List.nodup_append] at h2
        obtain ⟨n1, n2, n3⟩ := h2
        simp only [Tree.findSpanList]
        rcases List.mem_cons.1 hc with rfl | hc
        · rw [ih n1]
        · have : y.findSpan u.span.id.span = none := by
            rw [findSpan_none]
            intro sp hsp e
            exact n3 _ (List.mem_map_of_mem hsp) _ (List.mem_map_of_mem (mem_spansList.2 ⟨c, hc, hmem⟩)) e
          rw [this]
          exact ihx hc n2

/-- Every span is the root of a subtree. -/
theorem exists_subtree {tr : Tree} {sp : Span} (hn : sp ∈ tr.spans) : ∃ u, Subtree u tr ∧ u.span.id.span = sp.id.span := by
  cases h : tr.findSpan sp.id.span with
  | none => exact absurd rfl ((findSpan_none _ tr).1 h sp hn)
  | some u =>
    obtain ⟨h1, h2, -⟩ := findSpan_some _ tr u h
    exact ⟨u, h2, h1⟩

theorem span_unique {tr : Tree} (hn : (tr.spans.map fun sp => sp.id.span).Nodup) {a b : Span} (ha : a ∈ tr.spans)
    (hb : b ∈ tr.spans) (e : a.id.span = b.id.span) : a = b := List.inj_on_of_nodup_map hn ha hb e

/-- An unfolding that agrees with `tr` on IDs, annotations and children is equivalent to it. -/
theorem unfold_tree_equiv {tr : Tree} (hn : (tr.spans.map fun sp => sp.id.span).Nodup) {l : ID → Span}
    {sub : ID → List ID} (hid : ∀ sp ∈ tr.spans, (l sp.id.span).id = sp.id)
    (ha : ∀ sp ∈ tr.spans, (l sp.id.span).annotations.Perm sp.annotations)
    (hs : ∀ u, Subtree u tr → (sub u.span.id.span).Perm (u.sub.map fun c => c.span.id.span)) (fuel : Nat) (u t : Tree)
    (hu : Subtree u tr) (h : Forest.unfold l sub fuel u.span.id.span = some t) : TreeEquiv t u := by
  induction fuel generalizing u t with
  | zero => simp [Forest.unfold] at h
  | succ fuel ih =>
    have hmem := hu.spans_mem (span_mem_spans u)
    have hsub := hs u hu
    simp only [Forest.unfold] at h
    cases hm : (sub u.span.id.span).mapM (Forest.unfold l sub fuel) with
    | none => rw [hm] at h; cases h
    | some ts =>
      rw [hm] at h
      injection h with h
      subst h
      cases u with
      | node sp us =>
        simp only [Tree.span, Tree.sub] at *
        refine .node (hid sp hmem) (ha sp hmem) ?_
        refine forestEquiv_of_perm (g := tr.findSpan) ?_ _ _ ts us hsub hm ?_
        · intro c t u h1 h2
          obtain ⟨e, hu', -⟩ := findSpan_some _ tr u h2
          subst e
          exact ih u t hu' h1
        · have : ∀ vs : List Tree, (∀ v ∈ vs, Subtree v tr) →
              (vs.map fun c => c.span.id.span).mapM tr.findSpan = some vs := by
            intro vs
            induction vs with
            | nil => intro _; rfl
            | cons v vs ihv =>
              intro hv
              rw [List.map_cons, List.mapM_cons, findSpan_of_subtree (hv v (by simp)) hn,
                ihv (fun w hw => hv w (by simp [hw]))]
              rfl
          exact this us (fun v hv => (Spec.Subtree.child (u := .node sp us) (.refl v) hv).trans hu)

theorem Spec.Subtree.nodup {u tr : Tree} (h : Subtree u tr) (hn : (tr.spans.map fun sp => sp.id.span).Nodup) :
    (u.spans.map fun sp => sp.id.span).Nodup := by
  induction h with
  | refl => exact hn
  | @child c x h hc ih =>
    apply ih
    cases x with
    | node s ts =>
      simp only [Tree.sub] at hc
      simp only [Tree.spans, List.map_cons, List.nodup_cons] at hn
      have := hn.2
      clear hn ih h
      induction ts with
      | nil => cases hc
      | cons y ys ihx =>
        simp only [Tree.spansList, List.map_append, List.nodup_append] at this
        rcases List.mem_cons.1 hc with rfl | hc
        · exact this.1
        · exact ihx hc this.2.1

theorem roots_nodup {ts : List Tree} (h : ((Tree.spansList ts).map fun sp => sp.id.span).Nodup) :
    (ts.map fun c => c.span.id.span).Nodup := by
  induction ts with
  | nil => simp
  | cons t ts ih =>
    simp only [Tree.spansList, List.map_append, List.nodup_append] at h
    rw [List.map_cons, List.nodup_cons]
    refine ⟨?_, ih h.2.1⟩
    intro hm
    obtain ⟨c, hc, e⟩ := List.mem_map.1 hm
    exact h.2.2 _ (List.mem_map_of_mem (span_mem_spans t)) _
      (List.mem_map_of_mem (mem_spansList.2 ⟨c, hc, span_mem_spans c⟩)) e.symm

/-- An edge of the tree leads from the root of a subtree to the root of one of its children. -/
theorem edge_subtree (p c : Span) : ∀ tr : Tree, (p, c) ∈ tr.edges →
    ∃ u, Subtree u tr ∧ u.span = p ∧ ∃ v ∈ u.sub, v.span = c
  | .node s ts, h => by
    simp only [Tree.edges, List.mem_append, List.mem_map, Prod.mk.injEq, edgesList_mem] at h
    rcases h with ⟨v, hv, rfl, rfl⟩ | ⟨v, hv, he⟩
    · exact ⟨.node s ts, .refl _, rfl, v, hv, rfl⟩
    · obtain ⟨u, h1, h2⟩ := edge_subtree p c v he
      exact ⟨u, .child h1 hv, h2⟩

/-- Every span but the root is below another one. -/
theorem root_or_edge (sp : Span) : ∀ tr : Tree, sp ∈ tr.spans → sp = tr.span ∨ ∃ p, (p, sp) ∈ tr.edges
  | .node s ts, h => by
    simp only [Tree.spans, List.mem_cons, mem_spansList] at h
    rcases h with rfl | ⟨c, hc, h⟩
    · exact Or.inl rfl
    · right
      rcases root_or_edge sp c h with rfl | ⟨p, hp⟩
      · exact ⟨s, by simp only [Tree.edges, List.mem_append, List.mem_map]; exact Or.inl ⟨c, hc, rfl⟩⟩
      · exact ⟨p, by simp only [Tree.edges, List.mem_append, edgesList_mem]; exact Or.inr ⟨c, hc, hp⟩⟩

theorem Spec.CausalTree.edge {tr : Tree} (hc : CausalTree tr) {p c : Span} (h : (p, c) ∈ tr.edges) :
    p ∈ tr.spans ∧ c ∈ tr.spans ∧ c.id.parent = p.id.span ∧ c.id.trace = p.id.trace := by
  obtain ⟨u, hu, rfl, v, hv, rfl⟩ := edge_subtree p c tr h
  obtain ⟨g, hg⟩ := hc.derived _ h
  refine ⟨hu.spans_mem (span_mem_spans u), (Spec.Subtree.trans (.child (.refl v) hv) hu).spans_mem (span_mem_spans v), ?_, ?_⟩
  · exact congrArg SpanID.parent hg
  · exact (congrArg SpanID.trace hg : v.span.id.trace = (newSpanID u.span.id g).trace)

theorem Spec.CausalTree.parentless {tr : Tree} (hc : CausalTree tr) {sp : Span} (h : sp ∈ tr.spans) :
    sp.id.parent = 0 ↔ sp.id.span = tr.span.id.span := by
  constructor
  · intro e
    rcases root_or_edge sp tr h with rfl | ⟨p, hp⟩
    · rfl
    · obtain ⟨h1, -, h2, -⟩ := hc.edge hp
      exact absurd (by rw [← h2, e]) (hc.nonzero p h1)
  · intro e
    obtain ⟨g1, g2, hg⟩ := hc.root
    rw [span_unique hc.distinct h (span_mem_spans tr) e, hg]
    rfl

theorem live_trace (t : ID) (ops : List StoreOp) : ∀ e ∈ live t ops, e.1.trace = t := by
  induction ops using List.reverseRecOn with
  | nil => intro e he; cases he
  | append_singleton ops op ih =>
    simp only [live, List.foldl_append, List.foldl_cons, List.foldl_nil] at ih ⊢
    cases op with
    | collect id as =>
      simp only [liveStep]
      split
      · rename_i h
        intro e he
        rcases List.mem_append.1 he with he | he
        · exact ih e he
        · rw [List.mem_singleton] at he; rw [he]; exact h
      · exact ih
    | delete ids =>
      simp only [liveStep]
      split
      · intro e he; cases he
      · exact ih

theorem annotationsOf_flatMap (L : List Entry) (s : ID) :
    annotationsOf L s = L.flatMap fun e => if e.1.span = s then e.2 else [] := by
  induction L with
  | nil => rfl
  | cons e L ih => simp [annotationsOf, ih]

theorem causal_view {ops : List StoreOp} {ms : MemStore} (h : MemStore.new.run ops = some ms) {tr : Tree}
    (hc : CausalTree tr) (hr : Reports (live tr.span.id.trace ops) tr) :
    ∃ tr', ms.view tr.span.id.trace = .found tr' ∧ TreeEquiv tr' tr := by
  have hlt := live_trace tr.span.id.trace ops
  rcases run_view h tr.span.id.trace with ⟨h1, -⟩ | ⟨h1, T, tr', -, H, h2, hu⟩
  · obtain ⟨e, he, -⟩ := hr.complete _ (span_mem_spans tr)
    rw [h1] at he; cases he
  refine ⟨tr', h2, ?_⟩
  revert H hr h1 hlt
  generalize live tr.span.id.trace ops = L
  intro hr hlt _ H
  have I := H.2.2.2.1
  have hdp : ∀ s p, declaredParent L s = some p ↔ ∃ e ∈ L, e.1.span = s ∧ e.1.parent = p := by
    apply declaredParent_of_consistent
    intro e he e' he' ee
    obtain ⟨a, ha, ea⟩ := hr.known e he
    obtain ⟨b, hb, eb⟩ := hr.known e' he'
    rw [ea, eb] at ee ⊢
    rw [span_unique hc.distinct ha hb ee]
  have hpar : ∀ sp ∈ tr.spans, T.par sp.id.span = some sp.id.parent := by
    intro sp hsp
    rw [H.2.1, hdp]
    obtain ⟨e, he, ee⟩ := hr.complete sp hsp
    exact ⟨e, he, by rw [ee], by rw [ee]⟩
  have hpar' : ∀ s p, T.par s = some p → ∃ sp ∈ tr.spans, sp.id.span = s ∧ sp.id.parent = p := by
    intro s p hp
    rw [H.2.1, hdp] at hp
    obtain ⟨e, he, rfl, rfl⟩ := hp
    obtain ⟨a, ha, ea⟩ := hr.known e he
    exact ⟨a, ha, by rw [ea], by rw [ea]⟩
  have hrp : ∃ r, declaredParent L r = some 0 := by
    refine ⟨tr.span.id.span, ?_⟩
    rw [← H.2.1, hpar _ (span_mem_spans tr), (hc.parentless (span_mem_spans tr)).2 rfl]
  have hroot : T.root = tr.span.id.span := by
    obtain ⟨q, hq⟩ := lastRoot_of_parentless hrp
    rw [H.2.2.2.2 (fun e he e0 => by
      obtain ⟨a, ha, ea⟩ := hr.known e he
      exact hc.nonzero a ha (by rw [← ea]; exact e0)) q hq]
    have := lastRoot_parent _ _ hq
    rw [← H.2.1] at this
    obtain ⟨sp, hsp, rfl, e⟩ := hpar' _ _ this
    exact (hc.parentless hsp).1 e
  rw [hroot] at hu
  refine unfold_tree_equiv hc.distinct ?_ ?_ ?_ _ tr tr' (.refl _) hu
  · intro sp hsp
    simp only [ATrace.label, hpar sp hsp, Option.getD_some]
    obtain ⟨e, he, ee⟩ := hr.complete sp hsp
    have := hlt e he
    rw [ee] at this
    rw [← this]
  · intro sp hsp
    simp only [ATrace.label, H.2.2.1, annotationsOf_flatMap]
    have : (L.flatMap fun e => if e.1.span = sp.id.span then e.2 else []) =
        L.flatMap fun e => if e.1 = sp.id then e.2 else [] := by
      apply List.flatMap_congr
      intro e he
      obtain ⟨a, ha, ea⟩ := hr.known e he
      by_cases hh : e.1.span = sp.id.span
      · rw [if_pos hh, if_pos (by rw [ea] at hh ⊢; rw [span_unique hc.distinct ha hsp hh])]
      · rw [if_neg hh, if_neg (fun x => hh (by rw [x]))]
    rw [this]
    exact hr.annotations sp hsp
  · intro u hsu
    have hnd : (u.sub.map fun c => c.span.id.span).Nodup := by
      have := hsu.nodup hc.distinct
      cases u with
      | node s ts =>
        simp only [Tree.spans, List.map_cons, List.nodup_cons] at this
        exact roots_nodup this.2
    rw [List.perm_ext_iff_of_nodup (I.wf.nodup _) hnd]
    intro c
    rw [mem_sub_iff I]
    have hum := hsu.spans_mem (span_mem_spans u)
    constructor
    · rintro ⟨q, hq, hne, he⟩
      obtain ⟨sp, hsp, rfl, rfl⟩ := hpar' _ _ hq
      rcases root_or_edge sp tr hsp with rfl | ⟨p, hp⟩
      · exact absurd hroot.symm hne
      · obtain ⟨k1, -, k2, -⟩ := hc.edge hp
        rw [k2, hpar p k1, Option.isSome_some, if_pos rfl] at he
        obtain ⟨u', hu', e', v, hv, ev⟩ := edge_subtree p sp tr hp
        have : u' = u := by
          have a := findSpan_of_subtree hu' hc.distinct
          have b := findSpan_of_subtree hsu hc.distinct
          rw [e', ← he, b] at a
          injection a with a
          exact a.symm
        subst this
        exact List.mem_map.2 ⟨v, hv, by rw [ev]⟩
    · intro hm
      obtain ⟨v, hv, rfl⟩ := List.mem_map.1 hm
      have hedge : (u.span, v.span) ∈ tr.edges := by
        refine hsu.edges_mem ?_
        cases u with
        | node s ts =>
          simp only [Tree.edges, List.mem_append, List.mem_map]
          exact Or.inl ⟨v, hv, rfl⟩
      obtain ⟨k1, k2, k3, -⟩ := hc.edge hedge
      refine ⟨u.span.id.span, by rw [hpar _ k2, k3], ?_, by rw [hpar _ k1]; rfl⟩
      rw [hroot]
      intro e
      exact hc.nonzero _ k1 (by rw [← k3]; exact (hc.parentless k2).2 e)

theorem count_items (L : List Entry) (id : SpanID) (a : Annotation) :
    (L.flatMap fun e => if e.1 = id then e.2 else []).count a = (L.flatMap Chunked.items).count (id, a) := by
  induction L with
  | nil => rfl
  | cons e L ih =>
    rw [List.flatMap_cons, List.flatMap_cons, List.count_append, List.count_append, ih]
    congr 1
    split
    · rename_i h
      subst h
      rw [Chunked.items, List.count_map_of_injective _ _ (fun x y h => (Prod.mk.inj h).2)]
    · rename_i h
      rw [List.count_nil, eq_comm, List.count_eq_zero]
      intro hm
      obtain ⟨x, -, hx⟩ := List.mem_map.1 hm
      exact h (Prod.mk.inj hx).1

/-- Reports are about which spans occur, and with which annotations. -/
theorem Spec.Reports.congr {L L' : List Entry} {tr : Tree} (h : Reports L tr)
    (h1 : ∀ id, id ∈ L.map Prod.fst ↔ id ∈ L'.map Prod.fst)
    (h2 : ∀ sp ∈ tr.spans, (L.flatMap fun e => if e.1 = sp.id then e.2 else []).Perm
      (L'.flatMap fun e => if e.1 = sp.id then e.2 else [])) : Reports L' tr where
  known := by
    intro e he
    obtain ⟨e', he', ee⟩ := List.mem_map.1 ((h1 e.1).2 (List.mem_map_of_mem he))
    obtain ⟨sp, hsp, es⟩ := h.known e' he'
    exact ⟨sp, hsp, by rw [← ee, es]⟩
  complete := by
    intro sp hsp
    obtain ⟨e, he, ee⟩ := h.complete sp hsp
    obtain ⟨e', he', ee'⟩ := List.mem_map.1 ((h1 e.1).1 (List.mem_map_of_mem he))
    exact ⟨e', he', by rw [ee', ee]⟩
  annotations := fun sp hsp => (h2 sp hsp).symm.trans (h.annotations sp hsp)

theorem Spec.Reports.perm {L L' : List Entry} {tr : Tree} (h : Reports L tr) (hp : L.Perm L') : Reports L' tr :=
  h.congr (fun _ => (hp.map _).mem_iff) (fun _ _ => hp.flatMap_right _)

theorem Spec.CausalTree.trace {tr : Tree} (hc : CausalTree tr) : ∀ sp ∈ tr.spans, sp.id.trace = tr.span.id.trace := by
  have : ∀ t : ID, ∀ u : Tree, Subtree u tr → u.span.id.trace = t → ∀ sp ∈ u.spans, sp.id.trace = t := by
    intro t
    intro u
    induction hk : u.spans.length using Nat.strongRecOn generalizing u with
    | _ n ih =>
      subst hk
      intro hu hut sp hsp
      cases u with
      | node s ts =>
        simp only [Tree.spans, List.mem_cons, mem_spansList] at hsp
        rcases hsp with rfl | ⟨c, hcm, hsp⟩
        · exact hut
        · have hedge : (s, c.span) ∈ tr.edges := by
            refine hu.edges_mem ?_
            simp only [Tree.edges, List.mem_append, List.mem_map]
            exact Or.inl ⟨c, hcm, rfl⟩
          refine ih _ ?_ c rfl (Spec.Subtree.trans (.child (u := .node s ts) (.refl c) hcm) hu) ?_ sp hsp
          · simp only [Tree.spans, List.length_cons]
            have : ∀ ts : List Tree, c ∈ ts → c.spans.length ≤ (Tree.spansList ts).length := by
              intro ts
              induction ts with
              | nil => intro h; cases h
              | cons x xs ihx =>
                intro h
                simp only [Tree.spansList, List.length_append]
                rcases List.mem_cons.1 h with rfl | h
                · omega
                · have := ihx h; omega
            have := this ts hcm
            omega
          · rw [(hc.edge hedge).2.2.2]; exact hut
  exact this _ tr (.refl _) rfl

/-- For the annotations of the spans of a causal tree, calls for other traces do not matter. -/
theorem forTrace_annotations {tr : Tree} (hc : CausalTree tr) {sp : Span} (hsp : sp ∈ tr.spans) (L : List Entry) :
    ((forTrace tr.span.id.trace L).flatMap fun e => if e.1 = sp.id then e.2 else []) =
      L.flatMap fun e => if e.1 = sp.id then e.2 else [] := by
  induction L with
  | nil => rfl
  | cons e L ih =>
    simp only [forTrace, List.filter_cons]
    split
    · simp only [List.flatMap_cons]; rw [← ih]; rfl
    · rename_i hn
      have : e.1 ≠ sp.id := by
        intro x
        exact hn (by rw [x, hc.trace sp hsp]; simp)
      rw [List.flatMap_cons, if_neg this, ← ih]; rfl

theorem mem_forTrace_ids (t : ID) (L : List Entry) (id : SpanID) :
    id ∈ (forTrace t L).map Prod.fst ↔ id.trace = t ∧ id ∈ L.map Prod.fst := by
  simp only [forTrace, List.mem_map, List.mem_filter, decide_eq_true_eq]
  constructor
  · rintro ⟨e, ⟨h1, h2⟩, rfl⟩; exact ⟨h2, e, h1, rfl⟩
  · rintro ⟨h2, e, h1, rfl⟩; exact ⟨e, ⟨h1, h2⟩, rfl⟩

/-- If everything has been handed on and nothing was dropped, the annotations of each span are those accepted. -/
theorem annotations_delivered {cfg : Chunked.Cfg} {s : Chunked.State} (h : Chunked.Reachable cfg s) (hq : s.pending = [])
    (hf : ∀ F ∈ s.flushes, F.remaining = []) (hd : Chunked.droppedCalls s.history = []) (id : SpanID) :
    ((Chunked.acceptedCalls s.history).flatMap fun e => if e.1 = id then e.2 else []).Perm
      ((Chunked.deliveredCalls s.history).flatMap fun e => if e.1 = id then e.2 else []) := by
  rw [List.perm_iff_count]
  intro a
  rw [count_items, count_items]
  have := Chunked.conserved h (id, a)
  have e1 : Chunked.acceptedItems s.history = (Chunked.acceptedCalls s.history).flatMap Chunked.items := by
    generalize s.history = hh
    induction hh with
    | nil => rfl
    | cons x hh ih =>
      simp only [Chunked.acceptedItems, Chunked.acceptedCalls, List.flatMap_cons] at ih ⊢
      rw [ih]
      cases x with
      | collect d fate err => cases fate <;> simp
      | _ => simp
  have e2 : Chunked.deliveredItems s.history = (Chunked.deliveredCalls s.history).flatMap Chunked.items := by
    generalize s.history = hh
    induction hh with
    | nil => rfl
    | cons x hh ih =>
      simp only [Chunked.deliveredItems, Chunked.deliveredCalls, List.flatMap_cons] at ih ⊢
      rw [ih]
      cases x <;> simp
  have e3 : Chunked.droppedItems s.history = (Chunked.droppedCalls s.history).flatMap Chunked.items := by
    generalize s.history = hh
    induction hh with
    | nil => rfl
    | cons x hh ih =>
      simp only [Chunked.droppedItems, Chunked.droppedCalls, List.flatMap_cons, List.flatMap_append] at ih ⊢
      rw [ih]
      cases x with
      | collect d fate err => cases fate <;> simp
      | _ => simp
  have e4 : Chunked.queuedItems s = [] := by simp [Chunked.queuedItems, hq]
  have e5 : Chunked.heldItems s = [] := by
    simp only [Chunked.heldItems, List.flatMap_eq_nil_iff]
    intro f hfm x hx
    rw [hf f hfm] at hx; cases hx
  rw [e1, e2, e3, hd, e4, e5] at this
  simpa using this

/-- When everything accepted has been delivered, the deliveries report the same spans as the accepted calls. -/
theorem reports_delivered {cfg : Chunked.Cfg} {s : Chunked.State} (h : Chunked.Reachable cfg s) (hq : s.pending = [])
    (hf : ∀ F ∈ s.flushes, F.remaining = []) (hd : Chunked.droppedCalls s.history = []) {tr : Tree} (hc : CausalTree tr)
    (hr : Reports (forTrace tr.span.id.trace (Chunked.acceptedCalls s.history)) tr) :
    Reports (forTrace tr.span.id.trace (Chunked.deliveredCalls s.history)) tr := by
  refine hr.congr ?_ ?_
  · intro id
    rw [mem_forTrace_ids, mem_forTrace_ids, Chunked.ids_conserved h, hq, hd]
    have : ¬ ∃ f ∈ s.flushes, id ∈ f.remaining.map Prod.fst := by
      rintro ⟨f, h1, h2⟩
      rw [hf f h1] at h2; cases h2
    simp only [this, List.map_nil, List.not_mem_nil, false_or, or_false]
  · intro sp hsp
    rw [forTrace_annotations hc hsp, forTrace_annotations hc hsp]
    exact annotations_delivered h hq hf hd sp.id

theorem live_of_collects (t : ID) (L : List Entry) (ops : List StoreOp)
    (hp : ops = L.map fun e => StoreOp.collect e.1 e.2) : live t ops = forTrace t L := by
  subst hp
  have : ∀ acc, (L.map fun e => StoreOp.collect e.1 e.2).foldl (liveStep t) acc = acc ++ forTrace t L := by
    induction L with
    | nil => intro acc; simp [forTrace]
    | cons e L ih =>
      intro acc
      rw [List.map_cons, List.foldl_cons, ih]
      simp only [liveStep, forTrace, List.filter_cons]
      by_cases h : e.1.trace = t <;> simp [h]
  simpa [live] using this []

theorem reannotate_span (f : SpanID → List Annotation) (tr : Tree) :
    (reannotate f tr).span = { tr.span with annotations := f tr.span.id } := by
  cases tr; simp [reannotate, Tree.span]

mutual
theorem reannotate_spans (f : SpanID → List Annotation) : ∀ tr : Tree,
    (reannotate f tr).spans = tr.spans.map fun sp => { sp with annotations := f sp.id }
  | .node sp ts => by simp [reannotate, Tree.spans, reannotateList_spans f ts]
theorem reannotateList_spans (f : SpanID → List Annotation) : ∀ ts : List Tree,
    Tree.spansList (reannotateList f ts) = (Tree.spansList ts).map fun sp => { sp with annotations := f sp.id }
  | [] => rfl
  | t :: ts => by simp [reannotateList, Tree.spansList, reannotate_spans f t, reannotateList_spans f ts]
end

theorem reannotateList_map (f : SpanID → List Annotation) (ts : List Tree) :
    reannotateList f ts = ts.map (reannotate f) := by
  induction ts with
  | nil => rfl
  | cons t ts ih => simp [reannotateList, ih]

mutual
theorem reannotate_edges (f : SpanID → List Annotation) : ∀ tr : Tree,
    (reannotate f tr).edges = tr.edges.map fun e =>
      ({ e.1 with annotations := f e.1.id }, { e.2 with annotations := f e.2.id })
  | .node sp ts => by
    simp only [reannotate, Tree.edges, reannotateList_edges f ts, List.map_append]
    congr 1
    rw [reannotateList_map, List.map_map, List.map_map]
    apply List.map_congr_left
    intro c _
    simp [reannotate_span]
theorem reannotateList_edges (f : SpanID → List Annotation) : ∀ ts : List Tree,
    Tree.edgesList (reannotateList f ts) = (Tree.edgesList ts).map fun e =>
      ({ e.1 with annotations := f e.1.id }, { e.2 with annotations := f e.2.id })
  | [] => rfl
  | t :: ts => by simp [reannotateList, Tree.edgesList, reannotate_edges f t, reannotateList_edges f ts]
end

theorem Spec.CausalTree.reannotate {tr : Tree} (hc : CausalTree tr) (f : SpanID → List Annotation) :
    CausalTree (reannotate f tr) where
  root := by rw [reannotate_span]; exact hc.root
  derived := by
    intro e he
    rw [reannotate_edges] at he
    obtain ⟨e', he', rfl⟩ := List.mem_map.1 he
    exact hc.derived e' he'
  distinct := by
    rw [reannotate_spans, List.map_map]
    exact hc.distinct
  nonzero := by
    intro sp hsp
    rw [reannotate_spans] at hsp
    obtain ⟨sp', h, rfl⟩ := List.mem_map.1 hsp
    exact hc.nonzero sp' h

end Appdash
