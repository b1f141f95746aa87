import Verif.Proofs.StoreTraces
import Verif.Spec.Upload

/-! # Uploads -/

namespace Appdash

open Spec

/-- The `Collect` call made for a span. -/
def entryOf (sp : Span) : Entry := (sp.id, sp.annotations)

/-- As a store call. -/
def opOf (sp : Span) : StoreOp := .collect sp.id sp.annotations

/-! ## Order of the spans -/

mutual
theorem spans_before (tr : Tree) : ∀ (P : List Span) (sp : Span) (S : List Span), tr.spans = P ++ sp :: S →
    (P = [] ∧ sp = tr.span) ∨ ∃ a ∈ P, (a, sp) ∈ tr.edges := by
  cases tr with
  | node s ts =>
    intro P sp S h
    cases P with
    | nil =>
      simp only [Tree.spans, List.nil_append, List.cons.injEq] at h
      exact Or.inl ⟨rfl, h.1.symm⟩
    | cons a P =>
      simp only [Tree.spans, List.cons_append, List.cons.injEq] at h
      obtain ⟨rfl, h⟩ := h
      right
      rcases spansList_before ts P sp S h with ⟨c, hc, rfl⟩ | ⟨b, hb, he⟩
      · exact ⟨s, by simp, by simp only [Tree.edges, List.mem_append, List.mem_map]; exact Or.inl ⟨c, hc, rfl⟩⟩
      · exact ⟨b, by simp [hb], by simp [Tree.edges, he]⟩
theorem spansList_before (ts : List Tree) : ∀ (P : List Span) (sp : Span) (S : List Span),
    Tree.spansList ts = P ++ sp :: S →
    (∃ c ∈ ts, sp = c.span) ∨ ∃ a ∈ P, (a, sp) ∈ Tree.edgesList ts := by
  cases ts with
  | nil => intro P sp S h; simp [Tree.spansList] at h
  | cons t ts =>
    intro P sp S h
    simp only [Tree.spansList] at h
    rcases List.append_eq_append_iff.1 h with ⟨P', rfl, h2⟩ | ⟨S', h1, h2⟩
    · rcases spansList_before ts P' sp S h2 with ⟨c, hc, e⟩ | ⟨a, ha, he⟩
      · exact Or.inl ⟨c, by simp [hc], e⟩
      · exact Or.inr ⟨a, by simp [ha], by simp [Tree.edgesList, he]⟩
    · cases S' with
      | nil =>
        simp only [List.nil_append] at h2
        rcases spansList_before ts [] sp S (by simpa using h2.symm) with ⟨c, hc, e⟩ | ⟨a, ha, he⟩
        · exact Or.inl ⟨c, by simp [hc], e⟩
        · cases ha
      | cons x S' =>
        simp only [List.cons_append, List.cons.injEq] at h2
        obtain ⟨rfl, -⟩ := h2
        rcases spans_before t P sp S' h1 with ⟨-, e⟩ | ⟨a, ha, he⟩
        · exact Or.inl ⟨t, by simp, e⟩
        · exact Or.inr ⟨a, ha, by simp [Tree.edgesList, he]⟩
end

theorem spans_cons (tr : Tree) : tr.spans = tr.span :: Tree.spansList tr.sub := by cases tr; rfl

theorem spansList_mem {ts : List Tree} {sp : Span} : sp ∈ Tree.spansList ts ↔ ∃ c ∈ ts, sp ∈ c.spans := by
  induction ts with
  | nil => simp [Tree.spansList]
  | cons t ts ih => simp [Tree.spansList, ih]

theorem edgesList_mem {ts : List Tree} {e : Span × Span} : e ∈ Tree.edgesList ts ↔ ∃ c ∈ ts, e ∈ c.edges := by
  induction ts with
  | nil => simp [Tree.edgesList]
  | cons t ts ih => simp [Tree.edgesList, ih]

theorem edges_def (tr : Tree) : tr.edges = (tr.sub.map fun c => (tr.span, c.span)) ++ Tree.edgesList tr.sub := by
  cases tr; rfl

theorem mem_tail_edge {tr : Tree} {sp : Span} (h : sp ∈ Tree.spansList tr.sub) :
    ∃ a ∈ tr.spans, (a, sp) ∈ tr.edges := by
  obtain ⟨P, S, e⟩ := List.append_of_mem h
  rcases spans_before tr (tr.span :: P) sp S (by rw [spans_cons, e]; rfl) with ⟨h, -⟩ | ⟨a, ha, he⟩
  · cases h
  · exact ⟨a, by rw [spans_cons, e]; simp at ha ⊢; tauto, he⟩

mutual
theorem edge_mem (tr : Tree) : ∀ a b : Span, (a, b) ∈ tr.edges → a ∈ tr.spans ∧ b ∈ Tree.spansList tr.sub := by
  cases tr with
  | node s ts =>
    intro a b h
    simp only [Tree.edges, List.mem_append, List.mem_map, Prod.mk.injEq] at h
    rcases h with ⟨c, hc, rfl, rfl⟩ | h
    · exact ⟨by simp [Tree.spans], spansList_mem.2 ⟨c, hc, by rw [spans_cons]; simp⟩⟩
    · have := edgeList_mem ts a b h
      exact ⟨by simp [Tree.spans, this.1], this.2⟩
theorem edgeList_mem (ts : List Tree) : ∀ a b : Span, (a, b) ∈ Tree.edgesList ts →
    a ∈ Tree.spansList ts ∧ b ∈ Tree.spansList ts := by
  cases ts with
  | nil => intro a b h; simp [Tree.edgesList] at h
  | cons t ts =>
    intro a b h
    simp only [Tree.edgesList, List.mem_append] at h
    simp only [Tree.spansList, List.mem_append]
    rcases h with h | h
    · have := edge_mem t a b h
      exact ⟨Or.inl this.1, Or.inl (by rw [spans_cons]; simp [this.2])⟩
    · have := edgeList_mem ts a b h
      exact ⟨Or.inr this.1, Or.inr this.2⟩
end

/-- Span IDs of a tree. -/
def treeIDs (tr : Tree) : List ID := tr.spans.map fun s => s.id.span

theorem subtree_mem {u tr : Tree} (hu : Subtree u tr) : ∀ sp ∈ u.spans, sp ∈ tr.spans := by
  induction hu with
  | refl => exact fun _ h => h
  | child hs hc ih =>
    intro sp hsp
    rw [spans_cons]
    exact List.mem_cons_of_mem _ (spansList_mem.2 ⟨_, hc, ih sp hsp⟩)

theorem span_mem_spans (tr : Tree) : tr.span ∈ tr.spans := by rw [spans_cons]; simp

/-- No child of `y` among spans that do not contain `y`. -/
theorem filter_none (q : Span → ID) (tr : Tree) (hq : ∀ a c, (a, c) ∈ tr.edges → q c = a.id.span) (y : ID)
    (hy : y ∉ treeIDs tr) : (Tree.spansList tr.sub).filter (fun c => decide (q c = y)) = [] := by
  rw [List.filter_eq_nil_iff]
  intro sp hsp
  obtain ⟨a, ha, he⟩ := mem_tail_edge hsp
  rw [hq a sp he]
  simp only [decide_eq_true_eq]
  rintro rfl
  exact hy (List.mem_map.2 ⟨a, ha, rfl⟩)

theorem edges_sub {tr c : Tree} (hc : c ∈ tr.sub) {e : Span × Span} (he : e ∈ c.edges) : e ∈ tr.edges := by
  rw [edges_def]
  exact List.mem_append_right _ (edgesList_mem.2 ⟨c, hc, he⟩)

theorem edges_child {tr c : Tree} (hc : c ∈ tr.sub) : (tr.span, c.span) ∈ tr.edges := by
  rw [edges_def]
  exact List.mem_append_left _ (List.mem_map.2 ⟨c, hc, rfl⟩)

/-- Children of a subtree, found by looking through the whole tree. -/
theorem filter_children (q : Span → ID) (tr : Tree) (hn : (treeIDs tr).Nodup)
    (hq : ∀ a c, (a, c) ∈ tr.edges → q c = a.id.span) (u : Tree) (hu : Subtree u tr) :
    (Tree.spansList tr.sub).filter (fun c => decide (q c = u.span.id.span)) = u.sub.map Tree.span := by
  induction hu with
  | refl =>
    have hn' : u.span.id.span ∉ (Tree.spansList u.sub).map (fun s => s.id.span) := by
      rw [treeIDs, spans_cons, List.map_cons, List.nodup_cons] at hn
      exact hn.1
    have key : ∀ ts : List Tree, (∀ c ∈ ts, c ∈ u.sub) →
        (Tree.spansList ts).filter (fun c => decide (q c = u.span.id.span)) = ts.map Tree.span := by
      intro ts
      induction ts with
      | nil => intro _; rfl
      | cons c ts ih =>
        intro h
        have hc := h c (by simp)
        simp only [Tree.spansList, List.filter_append, spans_cons, List.filter_cons, List.map_cons]
        rw [ih (fun c hc => h c (by simp [hc])), hq _ _ (edges_child hc)]
        rw [filter_none q c (fun a b he => hq a b (edges_sub hc he))]
        · simp
        · intro hm
          obtain ⟨sp, h1, h2⟩ := List.mem_map.1 hm
          exact hn' (List.mem_map.2 ⟨sp, spansList_mem.2 ⟨c, hc, h1⟩, h2⟩)
    exact key _ (fun _ h => h)
  | @child c tr hs hc ih =>
    obtain ⟨l1, l2, e⟩ := List.append_of_mem hc
    have sl : ∀ a b : List Tree, Tree.spansList (a ++ b) = Tree.spansList a ++ Tree.spansList b := by
      intro a b
      induction a with
      | nil => rfl
      | cons x a ih => simp [Tree.spansList, ih]
    rw [treeIDs, spans_cons, e, sl, List.map_cons, List.map_append, Tree.spansList, List.map_append,
      List.nodup_cons, List.nodup_append, List.nodup_append] at hn
    obtain ⟨n0, n1, ⟨n2, n3, n4⟩, n5⟩ := hn
    have hum : u.span.id.span ∈ treeIDs c := List.mem_map.2 ⟨u.span, subtree_mem hs _ (span_mem_spans u), rfl⟩
    have none : ∀ ts : List Tree, (∀ d ∈ ts, d ∈ tr.sub) → (∀ d ∈ ts, u.span.id.span ∉ treeIDs d) →
        (Tree.spansList ts).filter (fun c => decide (q c = u.span.id.span)) = [] := by
      intro ts
      induction ts with
      | nil => intros; rfl
      | cons d ts ih =>
        intro h1 h2
        have hd := h1 d (by simp)
        simp only [Tree.spansList, List.filter_append, spans_cons, List.filter_cons]
        rw [ih (fun c hc => h1 c (by simp [hc])) (fun c hc => h2 c (by simp [hc])), hq _ _ (edges_child hd)]
        rw [filter_none q d (fun a b he => hq a b (edges_sub hd he)) _ (h2 d (by simp))]
        have : ¬ tr.span.id.span = u.span.id.span := by
          intro e'
          rw [e'] at n0
          exact n0 (List.mem_append_right _ (List.mem_append_left _ hum))
        simp [this]
    rw [e, sl, Tree.spansList, List.filter_append, List.filter_append, none l1, none l2, spans_cons, List.filter_cons,
      hq _ _ (edges_child hc), ih n2 (fun a b he => hq a b (edges_sub hc he))]
    · have : ¬ tr.span.id.span = u.span.id.span := by
        intro e'
        rw [e'] at n0
        exact n0 (List.mem_append_right _ (List.mem_append_left _ hum))
      simp [this]
    · intro d hd; rw [e]; simp [hd]
    · intro d hd hm
      obtain ⟨sp, h1, h2⟩ := List.mem_map.1 hm
      exact n4 _ hum _ (List.mem_map.2 ⟨sp, spansList_mem.2 ⟨d, hd, h1⟩, h2⟩) rfl
    · intro d hd; rw [e]; simp [hd]
    · intro d hd hm
      obtain ⟨sp, h1, h2⟩ := List.mem_map.1 hm
      exact n5 _ (List.mem_map.2 ⟨sp, spansList_mem.2 ⟨d, hd, h1⟩, h2⟩) _ (List.mem_append_left _ hum) rfl

/-- If every subtree's root has the subtree's children, the forest unfolds to the tree. -/
theorem unfold_subtree (label : ID → Span) (sub : ID → List ID) (tr : Tree)
    (h : ∀ u, Subtree u tr → label u.span.id.span = u.span ∧ sub u.span.id.span = u.sub.map fun c => c.span.id.span) :
    ∀ (n : Nat) (u : Tree), sizeOf u < n → Subtree u tr → Forest.unfold label sub n u.span.id.span = some u := by
  intro n
  induction n with
  | zero => intro u hn; omega
  | succ n ih =>
    intro u hn hu
    cases u with
    | node s ts =>
      have h1 : label s.id.span = s := (h _ hu).1
      have h2 : sub s.id.span = ts.map fun c => c.span.id.span := (h _ hu).2
      show Forest.unfold label sub (n + 1) s.id.span = _
      simp only [Forest.unfold, h2]
      have : (ts.map fun c => c.span.id.span).mapM (Forest.unfold label sub n) = some ts := by
        have hk : ∀ c ∈ ts, Forest.unfold label sub n c.span.id.span = some c := by
          intro c hc
          refine ih c ?_ ?_
          · have := List.sizeOf_lt_of_mem hc
            simp only [Tree.node.sizeOf_spec] at hn
            omega
          · clear ih h h1 h2 hn
            have base : Subtree c (.node s ts) := .child (.refl c) hc
            clear hc
            induction hu with
            | refl => exact base
            | child _ hc' ih => exact .child (ih) hc'
        clear h2 hn hu
        induction ts with
        | nil => rfl
        | cons c ts iht =>
          simp only [List.map_cons, List.mapM_cons, hk c (by simp), Option.bind_eq_bind, Option.bind_some]
          rw [iht (fun d hd => hk d (by simp [hd]))]
          rfl
      simp only [this, h1]

/-! ## Collecting the spans of a tree in order -/

/-- Where a span of the tree is attached. -/
def attachTo (tr : Tree) (sp : Span) : ID :=
  if sp.id.parent ∈ treeIDs tr then sp.id.parent else tr.span.id.span

theorem attachTo_edge {t : ID} {tr : Tree} (W : WellPlaced t tr) {a c : Span} (h : (a, c) ∈ tr.edges) :
    attachTo tr c = a.id.span := by
  unfold attachTo
  rcases W.place a c h with e | ⟨rfl, hn⟩
  · rw [e, if_pos]
    exact List.mem_map.2 ⟨a, (edge_mem tr a c h).1, rfl⟩
  · rw [if_neg]
    intro hm
    obtain ⟨sp, h1, h2⟩ := List.mem_map.1 hm
    exact hn sp h1 h2

/-- State after collecting the root and then `P`. -/
structure DfsState (tr : Tree) (P : List Span) (T : ATrace) : Prop where
  root : T.root = tr.span.id.span
  par : ∀ sp ∈ tr.span :: P, T.par sp.id.span = some sp.id.parent
  anns : ∀ sp ∈ tr.span :: P, T.anns sp.id.span = sp.annotations
  dom : ∀ s, (∀ sp ∈ tr.span :: P, sp.id.span ≠ s) → T.par s = none
  sub : ∀ y, T.sub y = (P.filter fun c => decide (attachTo tr c = y)).map fun c => c.id.span

theorem upd_same {α β : Type} [DecidableEq α] (f : α → β) (a : α) : upd f a (f a) = f := by
  funext x
  simp only [upd]
  split
  · rename_i h; rw [h]
  · rfl

theorem dfs_state {t : ID} {tr : Tree} (W : WellPlaced t tr) (R : TrueRoot tr) :
    ∀ P S, Tree.spansList tr.sub = P ++ S →
      ∃ T, ATrace.ofLive ((tr.span :: P).map entryOf) = some T ∧ DfsState tr P T := by
  intro P
  induction P using List.reverseRecOn with
  | nil =>
    intro S _
    refine ⟨_, rfl, ?_⟩
    refine ⟨rfl, ?_, ?_, ?_, ?_⟩
    · intro sp hsp
      simp only [List.mem_singleton] at hsp
      subst hsp
      simp [entryOf, ATrace.fresh, upd]
    · intro sp hsp
      simp only [List.mem_singleton] at hsp
      subst hsp
      simp [entryOf, ATrace.fresh, upd]
    · intro s h
      have := h tr.span (by simp)
      have : ¬ s = tr.span.id.span := fun e => this e.symm
      simp [entryOf, ATrace.fresh, upd, this]
    · intro y; rfl
  | append_singleton P sp ih =>
    intro S hS
    obtain ⟨T, hT, D⟩ := ih (sp :: S) (by rw [hS]; simp)
    have hall : tr.spans = (tr.span :: P) ++ sp :: S := by rw [spans_cons, hS]; simp
    have hnd := W.nodup
    rw [hall, List.map_append, List.map_cons (l := S), List.nodup_append] at hnd
    obtain ⟨-, -, hdis⟩ := hnd
    have hnew : ∀ x ∈ tr.span :: P, x.id.span ≠ sp.id.span := by
      intro x hx e
      exact hdis _ (List.mem_map.2 ⟨x, hx, rfl⟩) _ (by simp) e
    have hpar : T.par sp.id.span = none := D.dom _ hnew
    have hne : sp ≠ tr.span := by rintro rfl; exact hnew tr.span (by simp) rfl
    obtain ⟨r1, r2⟩ := R sp (by rw [hall]; simp) hne
    have hroot : T.par T.root = some tr.span.id.parent := by
      rw [D.root]; exact D.par tr.span (by simp)
    have hc : ¬ (sp.id.parent = 0 ∨ T.par T.root = some sp.id.span) := by
      rw [hroot]
      rintro (h | h)
      · exact r1 h
      · injection h with h; exact r2 h.symm
    -- the tree parent comes earlier
    have hbefore : ∃ a ∈ tr.span :: P, (a, sp) ∈ tr.edges := by
      rcases spans_before tr _ sp S hall with ⟨h, -⟩ | h
      · cases h
      · exact h
    obtain ⟨a, ha, hae⟩ := hbefore
    have hat := attachTo_edge W hae
    refine ⟨T.collect sp.id.span sp.id.parent sp.annotations, ?_, ?_⟩
    · have : (tr.span :: (P ++ [sp])).map entryOf = (tr.span :: P).map entryOf ++ [entryOf sp] := by simp
      rw [this, ofLive_append, hT]
      rfl
    have hcol : T.collect sp.id.span sp.id.parent sp.annotations =
        ((T.addNew sp.id.span sp.id.parent sp.annotations).insert sp.id.span).reattach sp.id.span T.root := by
      simp [ATrace.collect, hpar, hc]
    have hpN : ∀ x, x ≠ sp.id.span → (T.addNew sp.id.span sp.id.parent sp.annotations).par x = T.par x := by
      intro x hx; simp [ATrace.addNew, upd, hx]
    have hps : (T.addNew sp.id.span sp.id.parent sp.annotations).par sp.id.span = some sp.id.parent := by
      simp [ATrace.addNew, upd]
    have hsubnil : T.sub sp.id.span = [] := by
      rw [D.sub, List.map_eq_nil_iff, List.filter_eq_nil_iff]
      intro c hc' e
      simp only [decide_eq_true_eq] at e
      obtain ⟨P1, P2, eP⟩ := List.append_of_mem hc'
      have hall' : tr.spans = (tr.span :: P1) ++ c :: (P2 ++ sp :: S) := by rw [hall, eP]; simp
      rcases spans_before tr _ c _ hall' with ⟨h, -⟩ | ⟨b, hb, hbe⟩
      · cases h
      · rw [attachTo_edge W hbe] at e
        refine hnew b ?_ e
        rw [eP]
        simp only [List.mem_cons, List.mem_append] at hb ⊢
        tauto
    have hsubN : (T.addNew sp.id.span sp.id.parent sp.annotations).sub = T.sub := by
      simp only [ATrace.addNew]
      rw [← hsubnil, upd_same]
    have hins : (T.addNew sp.id.span sp.id.parent sp.annotations).insert sp.id.span =
        (T.addNew sp.id.span sp.id.parent sp.annotations).appendSub (attachTo tr sp) [sp.id.span] := by
      unfold ATrace.insert
      rw [hps]
      simp only
      rcases W.place a sp hae with e | ⟨rfl, hno⟩
      · have h1 : sp.id.parent ≠ sp.id.span := by rw [e]; exact hnew a ha
        rw [hpN _ h1, e, D.par a ha, hat]
        simp
      · have h1 : ∀ x ∈ tr.span :: P, x.id.span ≠ sp.id.parent := by
          intro x hx
          apply hno
          rw [hall]
          exact List.mem_append_left _ hx
        have h2 : sp.id.parent ≠ sp.id.span := fun e => hno sp (by rw [hall]; simp) e.symm
        rw [hpN _ h2, D.dom _ h1, hat]
        simp [ATrace.addNew, D.root]
    have hsr : sp.id.span ≠ T.root := by rw [D.root]; exact fun e => hnew tr.span (by simp) e.symm
    -- nothing moves
    have hmove : ((T.addNew sp.id.span sp.id.parent sp.annotations).insert sp.id.span).reattach sp.id.span T.root =
        (T.addNew sp.id.span sp.id.parent sp.annotations).insert sp.id.span := by
      generalize hT' : (T.addNew sp.id.span sp.id.parent sp.annotations).insert sp.id.span = T'
      have hnone : ∀ c ∈ T'.sub T.root, T'.par c ≠ some sp.id.span := by
        intro c hc' e
        have hp' : T'.par = (T.addNew sp.id.span sp.id.parent sp.annotations).par := by rw [← hT']; simp
        rw [← hT', hins] at hc'
        simp only [ATrace.appendSub, hsubN, upd] at hc'
        have hcm : c ∈ T.sub T.root ∨ c = sp.id.span := by
          split at hc'
          · rename_i h; rw [← h] at hc'; simpa using hc'
          · exact Or.inl hc'
        rw [hp'] at e
        by_cases ec : c = sp.id.span
        · rw [ec, hps] at e
          injection e with e
          rcases W.place a sp hae with h | ⟨-, h⟩
          · exact hnew a ha (h.symm.trans e)
          · exact h sp (by rw [hall]; simp) e.symm
        · rw [hpN _ ec] at e
          have hcm := hcm.resolve_right ec
          rw [D.sub] at hcm
          obtain ⟨x, hx, rfl⟩ := List.mem_map.1 hcm
          have hxP := List.mem_of_mem_filter hx
          rw [D.par x (by simp [hxP])] at e
          injection e with e
          have : attachTo tr x = sp.id.span := by
            unfold attachTo
            rw [e, if_pos]
            exact List.mem_map.2 ⟨sp, by rw [hall]; simp, rfl⟩
          have h2 : x.id.span ∈ T.sub sp.id.span := by
            rw [D.sub]
            exact List.mem_map.2 ⟨x, List.mem_filter.2 ⟨hxP, by simp [this]⟩, rfl⟩
          rw [hsubnil] at h2
          cases h2
      have f1 : ((T'.sub T.root).filter fun c => decide (T'.par c = some sp.id.span)) = [] := by
        rw [List.filter_eq_nil_iff]
        intro c hc'
        simp [hnone c hc']
      have f2 : ((T'.sub T.root).filter fun c => decide (T'.par c ≠ some sp.id.span)) = T'.sub T.root := by
        rw [List.filter_eq_self]
        intro c hc'
        simp [hnone c hc']
      unfold ATrace.reattach
      rw [f1, f2]
      cases T' with
      | mk r p an sb =>
        simp only [ATrace.appendSub, ATrace.setSub, List.append_nil]
        rw [upd_same]
        simp only [upd_same]
    rw [hcol, hmove, hins]
    refine ⟨by simp [ATrace.appendSub, ATrace.addNew, D.root], ?_, ?_, ?_, ?_⟩
    · intro x hx
      show (T.addNew sp.id.span sp.id.parent sp.annotations).par x.id.span = _
      rcases (by simpa [or_assoc] using hx : x = tr.span ∨ x ∈ P ∨ x = sp) with h | h | h
      · rw [hpN _ (hnew x (by simp [h]))]; exact D.par x (by simp [h])
      · rw [hpN _ (hnew x (by simp [h]))]; exact D.par x (by simp [h])
      · rw [h, hps]
    · intro x hx
      show upd T.anns sp.id.span sp.annotations x.id.span = _
      rcases (by simpa [or_assoc] using hx : x = tr.span ∨ x ∈ P ∨ x = sp) with h | h | h
      · simp only [upd, hnew x (by simp [h]), if_false]; exact D.anns x (by simp [h])
      · simp only [upd, hnew x (by simp [h]), if_false]; exact D.anns x (by simp [h])
      · simp [h, upd]
    · intro s h
      show (T.addNew sp.id.span sp.id.parent sp.annotations).par s = none
      have h1 : s ≠ sp.id.span := fun e => h sp (by simp) e.symm
      rw [hpN _ h1]
      refine D.dom s (fun x hx => h x ?_)
      simp only [List.mem_cons, List.mem_append] at hx ⊢
      tauto
    · intro y
      simp only [ATrace.appendSub, hsubN, upd, List.filter_append, List.map_append]
      by_cases e : y = attachTo tr sp
      · subst e
        simp [D.sub]
      · have e' : ¬ attachTo tr sp = y := fun h => e h.symm
        simp [e, e', D.sub]

/-- Collecting the spans of a tree in order gives the tree back. -/
theorem ofLive_spans {t : ID} {tr : Tree} (W : WellPlaced t tr) (R : TrueRoot tr) :
    ∃ T n, ATrace.ofLive (tr.spans.map entryOf) = some T ∧ T.root = tr.span.id.span ∧
      Forest.unfold (T.label t) T.sub n T.root = some tr := by
  obtain ⟨T, hT, D⟩ := dfs_state W R _ [] (List.append_nil _).symm
  refine ⟨T, sizeOf tr + 1, by rw [spans_cons]; exact hT, D.root, ?_⟩
  rw [D.root]
  refine unfold_subtree _ _ tr ?_ _ tr (by omega) (.refl tr)
  intro u hu
  have hm : u.span ∈ tr.span :: Tree.spansList tr.sub := by
    rw [← spans_cons]; exact subtree_mem hu _ (span_mem_spans u)
  constructor
  · have ht := W.trace u.span (by rw [spans_cons]; exact hm)
    simp only [ATrace.label, D.par _ hm, D.anns _ hm, Option.getD_some, ← ht]
  · rw [D.sub, filter_children (attachTo tr) tr W.nodup (fun a c h => attachTo_edge W h) u hu, List.map_map]
    rfl

/-! ## The upload as a sequence of `Collect` calls -/

/-- Reached by calls on an empty store. -/
def Reach (ms : MemStore) : Prop := ∃ ops, MemStore.new.run ops = some ms

theorem Reach.run {ms : MemStore} (h : Reach ms) (ops : List StoreOp) : ∃ ms', ms.run ops = some ms' ∧ Reach ms' := by
  obtain ⟨ops0, h0⟩ := h
  obtain ⟨ms', h', -⟩ := sim_run sim_new (ops0 ++ ops)
  have h2 := h'
  rw [run_append, h0] at h2
  exact ⟨ms', h2, _, h'⟩

theorem Reach.of_run {ms ms' : MemStore} (h : Reach ms) {ops : List StoreOp} (hr : ms.run ops = some ms') : Reach ms' := by
  obtain ⟨ms'', h1, h2⟩ := h.run ops
  rw [hr] at h1
  injection h1 with h1
  exact h1 ▸ h2

theorem run_cons_of {ms ms1 ms2 : MemStore} {op : StoreOp} {ops : List StoreOp} (h : ms.step op = some ms1)
    (h' : ms1.run ops = some ms2) : ms.run (op :: ops) = some ms2 := by simp [MemStore.run, h, h']

theorem run_append_of {ms ms1 ms2 : MemStore} {ops ops' : List StoreOp} (h : ms.run ops = some ms1)
    (h' : ms1.run ops' = some ms2) : ms.run (ops ++ ops') = some ms2 := by rw [run_append, h]; exact h'

mutual
theorem beforeNil_mem (p : PTree) : ∀ sp ∈ (PTree.beforeNil p).1, sp ∈ PTree.spans p := by
  cases p with
  | nil => simp [PTree.beforeNil]
  | node s ts =>
    intro sp h
    simp only [PTree.beforeNil, List.mem_cons] at h
    simp only [PTree.spans, List.mem_cons]
    rcases h with h | h
    · exact Or.inl h
    · exact Or.inr (beforeNilList_mem ts sp h)
theorem beforeNilList_mem (ts : List PTree) : ∀ sp ∈ (PTree.beforeNilList ts).1, sp ∈ PTree.spansList ts := by
  cases ts with
  | nil => simp [PTree.beforeNilList]
  | cons t ts =>
    intro sp h
    have h1 := beforeNil_mem t
    have h2 := beforeNilList_mem ts
    simp only [PTree.beforeNilList] at h
    simp only [PTree.spansList, List.mem_append]
    generalize PTree.beforeNil t = r at h h1
    obtain ⟨l, b⟩ := r
    cases b with
    | false => exact Or.inl (h1 sp h)
    | true =>
      simp only [List.mem_append] at h
      rcases h with h | h
      · exact Or.inl (h1 sp h)
      · exact Or.inr (h2 sp h)
end

mutual
theorem beforeNil_free (p : PTree) (h : PTree.NilFree p) : PTree.beforeNil p = (PTree.spans p, true) := by
  cases p with
  | nil => exact h.elim
  | node s ts =>
    simp only [PTree.NilFree] at h
    simp only [PTree.beforeNil, PTree.spans, beforeNilList_free ts h]
theorem beforeNilList_free (ts : List PTree) (h : PTree.NilFreeList ts) :
    PTree.beforeNilList ts = (PTree.spansList ts, true) := by
  cases ts with
  | nil => rfl
  | cons t ts =>
    simp only [PTree.NilFreeList] at h
    simp only [PTree.beforeNilList, PTree.spansList, beforeNil_free t h.1, beforeNilList_free ts h.2]
end

mutual
theorem collectTrace_run (p : PTree) : ∀ ms, Reach ms →
    ms.run ((PTree.beforeNil p).1.map opOf) = some (collectTrace ms p).1 ∧
    (collectTrace ms p).2 = (PTree.beforeNil p).2 := by
  cases p with
  | nil => intro ms _; exact ⟨rfl, rfl⟩
  | node s ts =>
    intro ms hms
    obtain ⟨ms1, h1, r1⟩ := hms.run [.collect s.id s.annotations]
    have hst : ms.collect s.id s.annotations = some ms1 := by
      simp only [MemStore.run, MemStore.step] at h1
      cases hc : ms.collect s.id s.annotations with
      | none => rw [hc] at h1; cases h1
      | some m => rw [hc] at h1; exact h1
    obtain ⟨h2, h3⟩ := collectSubs_run ts ms1 r1
    have hct : collectTrace ms (.node s ts) = collectSubs ms1 ts := by simp only [collectTrace, hst]
    rw [hct]
    exact ⟨run_cons_of (op := opOf s) hst h2, h3⟩
theorem collectSubs_run (ts : List PTree) : ∀ ms, Reach ms →
    ms.run ((PTree.beforeNilList ts).1.map opOf) = some (collectSubs ms ts).1 ∧
    (collectSubs ms ts).2 = (PTree.beforeNilList ts).2 := by
  cases ts with
  | nil => intro ms _; exact ⟨rfl, rfl⟩
  | cons t ts =>
    intro ms hms
    obtain ⟨h2, h3⟩ := collectTrace_run t ms hms
    simp only [collectSubs, PTree.beforeNilList]
    generalize hc : collectTrace ms t = r at h2 h3
    obtain ⟨ms1, b⟩ := r
    generalize hl : PTree.beforeNil t = q at h2 h3
    obtain ⟨l, b'⟩ := q
    simp only at h3
    subst h3
    cases b with
    | false => exact ⟨h2, rfl⟩
    | true =>
      obtain ⟨h2', h3'⟩ := collectSubs_run ts ms1 (hms.of_run h2)
      refine ⟨?_, h3'⟩
      simp only [List.map_append]
      exact run_append_of h2 h2'
end

/-- An upload collects spans of the upload and does nothing else. -/
theorem upload_run (ps : List PTree) : ∀ ms, Reach ms → ∃ dn : List Span, (∀ sp ∈ dn, sp ∈ PTree.spansList ps) ∧
    ms.run (dn.map opOf) = some (uploadTraces ms ps).1 ∧ (PTree.NilFreeList ps → (uploadTraces ms ps).2 = true) := by
  induction ps with
  | nil => intro ms _; exact ⟨[], by simp, rfl, fun _ => rfl⟩
  | cons p ps ih =>
    intro ms hms
    cases p with
    | nil => exact ⟨[], by simp, rfl, fun h => h.1.elim⟩
    | node s ts =>
      simp only [uploadTraces]
      cases hp : ms.tracePtr s.id.trace with
      | some a =>
        obtain ⟨dn, h1, h2, h3⟩ := ih ms hms
        exact ⟨dn, fun sp h => by simp [PTree.spansList, h1 sp h], h2, fun h => h3 h.2⟩
      | none =>
        obtain ⟨h2, h3⟩ := collectTrace_run (.node s ts) ms hms
        have hm := beforeNil_mem (.node s ts)
        simp only
        generalize hc : collectTrace ms (.node s ts) = r at h2 h3
        obtain ⟨ms1, b⟩ := r
        cases b with
        | false =>
          refine ⟨_, fun sp h => ?_, h2, fun h => ?_⟩
          · simp [PTree.spansList, hm sp h]
          · rw [beforeNil_free _ h.1] at h3
            cases h3
        | true =>
          obtain ⟨dn', h1', h2', h3'⟩ := ih ms1 (hms.of_run h2)
          refine ⟨(PTree.beforeNil (.node s ts)).1 ++ dn', ?_, ?_, fun h => h3' h.2⟩
          · intro sp h
            rcases List.mem_append.1 h with h | h
            · simp [PTree.spansList, hm sp h]
            · simp [PTree.spansList, h1' sp h]
          · rw [List.map_append]
            exact run_append_of h2 h2'

theorem upload_reach {ms : MemStore} (h : Reach ms) (ps : List PTree) : Reach (uploadTraces ms ps).1 := by
  obtain ⟨dn, -, h2, -⟩ := upload_run ps ms h
  exact h.of_run h2

theorem upload_append (l1 l2 : List PTree) : ∀ ms, uploadTraces ms (l1 ++ l2) =
    if (uploadTraces ms l1).2 then uploadTraces (uploadTraces ms l1).1 l2 else uploadTraces ms l1 := by
  induction l1 with
  | nil => intro ms; rfl
  | cons p l1 ih =>
    intro ms
    cases p with
    | nil => rfl
    | node s ts =>
      cases hp : ms.tracePtr s.id.trace with
      | some a => simp only [List.cons_append, uploadTraces, hp]; exact ih ms
      | none =>
        cases hc : collectTrace ms (.node s ts) with
        | mk ms1 b =>
          cases b with
          | false => simp [uploadTraces, hp, hc]
          | true => simp only [List.cons_append, uploadTraces, hp, hc]; exact ih ms1

/-- The view of a trace no collected span belongs to. -/
theorem view_other {ms ms' : MemStore} (h : Reach ms) {dn : List Span} (hr : ms.run (dn.map opOf) = some ms') {t : ID}
    (ht : ∀ sp ∈ dn, sp.id.trace ≠ t) : ms'.view t = ms.view t := by
  obtain ⟨ops, h0⟩ := h
  refine view_of_live (run_append_of h0 hr) h0 t ?_
  simp only [live, List.foldl_append]
  clear hr
  generalize List.foldl (liveStep t) [] ops = L
  induction dn generalizing L with
  | nil => rfl
  | cons sp dn ih =>
    simp only [List.map_cons, List.foldl_cons, opOf, liveStep, ht sp (by simp), if_false]
    exact ih (fun x hx => ht x (by simp [hx])) L

theorem view_notFound_iff (ms : MemStore) (t : ID) : ms.view t = .notFound ↔ ms.tracePtr t = none := by
  unfold MemStore.view
  cases ms.tracePtr t with
  | none => simp
  | some a => simp only; split <;> simp

theorem live_nil_iff {ops : List StoreOp} {ms : MemStore} (h : MemStore.new.run ops = some ms) (t : ID) :
    ms.view t = .notFound ↔ live t ops = [] := by
  rcases run_view h t with ⟨h1, h2⟩ | ⟨h1, T, tr, -, -, h2, -⟩
  · simp [h1, h2]
  · simp [h1, h2]

theorem live_append_spans {t : ID} {ops : List StoreOp} {dn : List Span} (ht : ∀ sp ∈ dn, sp.id.trace = t) :
    live t (ops ++ dn.map opOf) = live t ops ++ dn.map entryOf := by
  simp only [live, List.foldl_append]
  generalize List.foldl (liveStep t) [] ops = L
  induction dn generalizing L with
  | nil => simp
  | cons sp dn ih =>
    simp only [List.map_cons, List.foldl_cons, opOf, liveStep, ht sp (by simp), if_true]
    have := ih (fun x hx => ht x (by simp [hx])) (L ++ [(sp.id, sp.annotations)])
    refine Eq.trans this ?_
    simp [entryOf]

mutual
theorem ofTree_spans (tr : Tree) : PTree.spans (PTree.ofTree tr) = tr.spans := by
  cases tr with
  | node s ts => simp only [PTree.ofTree, PTree.spans, Tree.spans, ofTrees_spans ts]
theorem ofTrees_spans (ts : List Tree) : PTree.spansList (PTree.ofTrees ts) = Tree.spansList ts := by
  cases ts with
  | nil => rfl
  | cons t ts => simp only [PTree.ofTrees, PTree.spansList, Tree.spansList, ofTree_spans t, ofTrees_spans ts]
end

mutual
theorem ofTree_nilFree (tr : Tree) : PTree.NilFree (PTree.ofTree tr) := by
  cases tr with
  | node s ts => simp only [PTree.ofTree, PTree.NilFree]; exact ofTrees_nilFree ts
theorem ofTrees_nilFree (ts : List Tree) : PTree.NilFreeList (PTree.ofTrees ts) := by
  cases ts with
  | nil => trivial
  | cons t ts => exact ⟨ofTree_nilFree t, ofTrees_nilFree ts⟩
end

/-- Uploading one tree whose trace is not there collects its spans in order. -/
theorem upload_single {ms : MemStore} (h : Reach ms) (tr : Tree) (hn : ms.view tr.span.id.trace = .notFound) :
    ∃ ms', uploadTraces ms [PTree.ofTree tr] = (ms', true) ∧ ms.run (tr.spans.map opOf) = some ms' := by
  obtain ⟨h2, hok⟩ := collectTrace_run (PTree.ofTree tr) ms h
  rw [beforeNil_free _ (ofTree_nilFree tr)] at h2 hok
  simp only [ofTree_spans] at h2 hok
  refine ⟨_, ?_, h2⟩
  rw [view_notFound_iff] at hn
  cases tr with
  | node s ts =>
    have hn' : ms.tracePtr s.id.trace = none := hn
    simp only [PTree.ofTree] at hok ⊢
    simp only [uploadTraces, hn']
    generalize collectTrace ms (.node s (PTree.ofTrees ts)) = r at hok
    obtain ⟨m, b⟩ := r
    simp only at hok
    subst hok
    rfl

/-- The trees returned by a store are well placed. -/
theorem view_wellPlaced {ops : List StoreOp} {ms : MemStore} (h : MemStore.new.run ops = some ms) {t : ID} {tr : Tree}
    (hv : ms.view t = .found tr) : WellPlaced t tr := by
  obtain ⟨T, -, H, hu⟩ := run_view_found h hv
  have I := H.2.2.2.1
  refine ⟨?_, spans_nodup H hu, ?_⟩
  · intro sp hsp
    obtain ⟨n, s, -, rfl⟩ := (mem_spans_iff hu sp).1 hsp
    rfl
  · intro p c he
    obtain ⟨n, a, b, hs, hb, rfl, rfl⟩ := (mem_edges_iff hu p c).1 he
    rcases I.place a b hb with h1 | ⟨rfl, q, h1, h2⟩
    · left; simp [ATrace.label, h1]
    · right
      refine ⟨(Forest.unfold_span _ hu).symm, ?_⟩
      intro sp hsp
      obtain ⟨m, x, hx, rfl⟩ := (mem_spans_iff hu sp).1 hsp
      have hd := I.steps_dom hx
      simp only [ATrace.label, h1, Option.getD_some]
      rintro rfl
      rw [h2] at hd
      cases hd

/-- If the tree has a second root, collecting it in order ends with another root. -/
theorem ofLive_root_ne {t : ID} {tr : Tree} (W : WellPlaced t tr) (R : ¬ TrueRoot tr) :
    ∃ T, ATrace.ofLive (tr.spans.map entryOf) = some T ∧ T.root ≠ tr.span.id.span := by
  -- once displaced, always displaced
  have key : ∀ P S, Tree.spansList tr.sub = P ++ S → ∃ T, ATrace.ofLive ((tr.span :: P).map entryOf) = some T ∧
      AInv T ∧ (∀ x, (T.par x).isSome = true ↔ ∃ sp ∈ tr.span :: P, sp.id.span = x) ∧
      T.par tr.span.id.span = some tr.span.id.parent ∧
      ((∃ sp ∈ P, sp.id.parent = 0 ∨ sp.id.span = tr.span.id.parent) → T.root ≠ tr.span.id.span) ∧
      (T.root = tr.span.id.span ∨ ∃ sp ∈ P, T.root = sp.id.span) := by
    intro P
    induction P using List.reverseRecOn with
    | nil =>
      intro S _
      refine ⟨_, rfl, AInv.fresh _ _ _, ?_, ?_, ?_, Or.inl rfl⟩
      · intro x
        by_cases e : x = tr.span.id.span
        · simp [entryOf, ATrace.fresh, upd, e]
        · have e' : ¬ tr.span.id.span = x := fun h => e h.symm
          simp [entryOf, ATrace.fresh, upd, e, e']
      · simp [entryOf, ATrace.fresh, upd]
      · rintro ⟨sp, h, -⟩; cases h
    | append_singleton P sp ih =>
      intro S hS
      obtain ⟨T, hT, I, hd, hr, hne, hor⟩ := ih (sp :: S) (by rw [hS]; simp)
      have hall : tr.spans = (tr.span :: P) ++ sp :: S := by rw [spans_cons, hS]; simp
      have hnd := W.nodup
      rw [hall, List.map_append, List.map_cons (l := S), List.nodup_append] at hnd
      obtain ⟨-, -, hdis⟩ := hnd
      have hnew : ∀ x ∈ tr.span :: P, x.id.span ≠ sp.id.span := by
        intro x hx e
        exact hdis _ (List.mem_map.2 ⟨x, hx, rfl⟩) _ (by simp) e
      have hpar : T.par sp.id.span = none := by
        cases hc : T.par sp.id.span with
        | none => rfl
        | some q =>
          obtain ⟨x, hx, e⟩ := (hd sp.id.span).1 (by simp [hc])
          exact absurd e (hnew x hx)
      refine ⟨T.collect sp.id.span sp.id.parent sp.annotations, ?_, I.collect _ _ _, ?_, ?_, ?_, ?_⟩
      · have : (tr.span :: (P ++ [sp])).map entryOf = (tr.span :: P).map entryOf ++ [entryOf sp] := by simp
        rw [this, ofLive_append, hT]
        rfl
      · intro x
        rw [collect_par T I, hpar]
        simp only [Option.isSome_none, Bool.false_eq_true, if_false, upd]
        by_cases e : x = sp.id.span
        · simp [e]
        · have e' : ¬ sp.id.span = x := fun h => e h.symm
          simp only [e, if_false, hd x, List.mem_cons, List.mem_append, List.not_mem_nil, or_false]
          constructor
          · rintro ⟨y, h1, h2⟩; exact ⟨y, by tauto, h2⟩
          · rintro ⟨y, h1, h2⟩
            refine ⟨y, ?_, h2⟩
            rcases h1 with h1 | h1 | h1
            · exact Or.inl h1
            · exact Or.inr h1
            · rw [h1] at h2; exact absurd h2 e'
      · rw [collect_par T I, hpar]
        have : ¬ tr.span.id.span = sp.id.span := hnew tr.span (by simp)
        simp [upd, this, hr]
      · rintro ⟨x, hx, hbad⟩
        rw [collect_root T I]
        split
        · exact fun e => hnew tr.span (by simp) e.symm
        · rename_i hns
          rcases List.mem_append.1 hx with hx | hx
          · exact hne ⟨x, hx, hbad⟩
          · simp only [List.mem_singleton] at hx
            subst hx
            intro e
            apply hns
            refine ⟨hpar, ?_⟩
            rw [e, hr]
            rcases hbad with h | h
            · exact Or.inl h
            · exact Or.inr (by rw [h])
      · rw [collect_root T I]
        split
        · exact Or.inr ⟨sp, by simp, rfl⟩
        · rcases hor with h | ⟨x, hx, h⟩
          · exact Or.inl h
          · exact Or.inr ⟨x, by simp [hx], h⟩
  obtain ⟨T, hT, -, -, -, hne, -⟩ := key _ [] (List.append_nil _).symm
  refine ⟨T, by rw [spans_cons]; exact hT, hne ?_⟩
  unfold TrueRoot at R
  rw [not_forall] at R
  obtain ⟨sp, R⟩ := R
  rw [Classical.not_imp, Classical.not_imp] at R
  obtain ⟨hm, hne', hb⟩ := R
  rw [spans_cons, List.mem_cons] at hm
  refine ⟨sp, hm.resolve_left hne', ?_⟩
  by_cases h0 : sp.id.parent = 0
  · exact Or.inl h0
  · right
    by_contra h1
    exact hb ⟨h0, h1⟩

/-- View after collecting the spans of a tree into a store that does not have the trace. -/
theorem view_after_spans {ops : List StoreOp} {ms ms' : MemStore} (h : MemStore.new.run ops = some ms) {t : ID}
    {tr : Tree} (W : WellPlaced t tr) (hn : ms.view t = .notFound) (hr : ms.run (tr.spans.map opOf) = some ms') :
    ms'.view t = .found tr ↔ TrueRoot tr := by
  have hl : live t (ops ++ tr.spans.map opOf) = tr.spans.map entryOf := by
    rw [live_append_spans W.trace, (live_nil_iff h t).1 hn, List.nil_append]
  rcases run_view (run_append_of h hr) t with ⟨h1, -⟩ | ⟨-, T, tr', hT, H, h2, hu⟩
  · rw [hl, spans_cons] at h1; cases h1
  · rw [hl] at hT
    rw [h2]
    constructor
    · intro e
      injection e with e
      subst e
      by_contra R
      obtain ⟨T', hT', hne⟩ := ofLive_root_ne W R
      rw [hT] at hT'
      injection hT' with hT'
      subst hT'
      apply hne
      rw [Forest.unfold_span _ hu]
      rfl
    · intro R
      obtain ⟨T', n, hT', -, hu'⟩ := ofLive_spans W R
      rw [hT] at hT'
      injection hT' with hT'
      subst hT'
      have a := Forest.unfold_mono _ hu (ms'.next + n) (by omega)
      have b := Forest.unfold_mono _ hu' (ms'.next + n) (by omega)
      rw [a] at b
      injection b with b
      rw [b]

/-! ## What an upload leaves alone -/

theorem upload_other {ms : MemStore} (h : Reach ms) (ps : List PTree) (t : ID)
    (ht : ∀ sp ∈ PTree.spansList ps, sp.id.trace ≠ t) : (uploadTraces ms ps).1.view t = ms.view t := by
  obtain ⟨dn, h1, h2, -⟩ := upload_run ps ms h
  exact view_other h h2 (fun sp hsp => ht sp (h1 sp hsp))

theorem uniform_spans {s : Span} {ts : List PTree} (h : PTree.Uniform (.node s ts)) {t : ID} (ht : s.id.trace ≠ t) :
    ∀ sp ∈ PTree.spans (.node s ts), sp.id.trace ≠ t := by
  intro sp hsp
  simp only [PTree.spans, List.mem_cons] at hsp
  rcases hsp with rfl | hsp
  · exact ht
  · rw [h sp hsp]; exact ht

theorem upload_keeps_aux (ps : List PTree) : ∀ ms, Reach ms → (∀ p ∈ ps, PTree.Uniform p) → ∀ t,
    ms.view t ≠ .notFound → (uploadTraces ms ps).1.view t = ms.view t := by
  induction ps with
  | nil => intros; rfl
  | cons p ps ih =>
    intro ms hms hu t ht
    cases p with
    | nil => rfl
    | node s ts =>
      have hu' := fun p hp => hu p (List.mem_cons_of_mem _ hp)
      by_cases e : s.id.trace = t
      · have hp : ∃ a, ms.tracePtr s.id.trace = some a := by
          rw [e]
          cases hp : ms.tracePtr t with
          | some a => exact ⟨a, rfl⟩
          | none => exact absurd ((view_notFound_iff ms t).2 hp) ht
        obtain ⟨a, hp⟩ := hp
        simp only [uploadTraces, hp]
        exact ih ms hms hu' t ht
      · have h1 := upload_other hms [.node s ts] t (by
          intro sp hsp
          simp only [PTree.spansList, List.append_nil] at hsp
          exact uniform_spans (hu _ (by simp)) e sp hsp)
        have := upload_append [.node s ts] ps ms
        simp only [List.singleton_append] at this
        rw [this]
        split
        · rw [ih _ (upload_reach hms _) hu' t (by rw [h1]; exact ht), h1]
        · exact h1

/-- The view of a missing trace after collecting spans of this trace. -/
theorem view_collected {ms ms1 ms2 ms1' : MemStore} {dn : List Span} {t : ID} (h : Reach ms) (h1 : Reach ms1)
    (ht : ∀ sp ∈ dn, sp.id.trace = t) (hn : ms.view t = .notFound) (hn1 : ms1.view t = .notFound)
    (hr : ms.run (dn.map opOf) = some ms2) (hr1 : ms1.run (dn.map opOf) = some ms1') : ms2.view t = ms1'.view t := by
  obtain ⟨ops, h0⟩ := h
  obtain ⟨ops1, h01⟩ := h1
  refine view_of_live (run_append_of h0 hr) (run_append_of h01 hr1) t ?_
  rw [live_append_spans ht, live_append_spans ht, (live_nil_iff h0 t).1 hn, (live_nil_iff h01 t).1 hn1]

theorem upload_first_aux {ms : MemStore} (hms : Reach ms) (l1 l2 : List PTree) (s : Span) (ts : List PTree)
    (hu : ∀ p ∈ l1 ++ .node s ts :: l2, PTree.Uniform p) (hf : PTree.NilFreeList l1)
    (h1 : ∀ p ∈ l1, PTree.traceID? p ≠ some s.id.trace) (hn : ms.view s.id.trace = .notFound) :
    (uploadTraces ms (l1 ++ .node s ts :: l2)).1.view s.id.trace = (uploadTraces ms [.node s ts]).1.view s.id.trace := by
  have hsp : ∀ sp ∈ PTree.spans (.node s ts), sp.id.trace = s.id.trace := by
    intro sp h
    simp only [PTree.spans, List.mem_cons] at h
    rcases h with rfl | h
    · rfl
    · exact hu (.node s ts) (by simp) sp h
  obtain ⟨dn1, hd1, hr1, hok1⟩ := upload_run l1 ms hms
  have hv1 : (uploadTraces ms l1).1.view s.id.trace = .notFound := by
    rw [upload_other hms l1, hn]
    intro sp hsp
    have : ∀ l : List PTree, (∀ p ∈ l, PTree.Uniform p) → (∀ p ∈ l, PTree.traceID? p ≠ some s.id.trace) →
        ∀ sp ∈ PTree.spansList l, sp.id.trace ≠ s.id.trace := by
      intro l
      induction l with
      | nil => intro _ _ sp h; simp [PTree.spansList] at h
      | cons p l ih =>
        intro a1 a2 sp h
        simp only [PTree.spansList, List.mem_append] at h
        rcases h with h | h
        · cases p with
          | nil => simp [PTree.spans] at h
          | node s' ts' =>
            refine uniform_spans (a1 (.node s' ts') (by simp)) ?_ sp h
            intro e
            exact a2 (.node s' ts') (by simp) (by simp [PTree.traceID?, e])
        · exact ih (fun p hp => a1 p (by simp [hp])) (fun p hp => a2 p (by simp [hp])) sp h
    exact this l1 (fun p hp => hu p (by simp [hp])) h1 sp hsp
  have hR1 := upload_reach hms l1
  rw [upload_append, hok1 hf, if_pos rfl]
  have e : PTree.node s ts :: l2 = [.node s ts] ++ l2 := rfl
  have single : ∀ m, Reach m → m.view s.id.trace = .notFound →
      m.run ((PTree.beforeNil (.node s ts)).1.map opOf) = some (uploadTraces m [.node s ts]).1 := by
    intro m hm hv
    have := collectTrace_run (.node s ts) m hm
    simp only [uploadTraces, (view_notFound_iff _ _).1 hv]
    generalize collectTrace m (.node s ts) = r at this
    obtain ⟨m', b⟩ := r
    cases b <;> exact this.1
  have hv2 := view_collected hR1 hms (fun sp h => hsp sp (beforeNil_mem _ sp h)) hv1 hn (single _ hR1 hv1)
    (single _ hms hn)
  rw [e, upload_append]
  split
  · have hfound : (uploadTraces (uploadTraces ms l1).1 [.node s ts]).1.view s.id.trace ≠ .notFound := by
      obtain ⟨ops, h0⟩ := hR1
      rw [Ne, live_nil_iff (run_append_of h0 (single _ ⟨ops, h0⟩ hv1)),
        live_append_spans (fun sp h => hsp sp (beforeNil_mem _ sp h))]
      simp [PTree.beforeNil]
    rw [upload_keeps_aux l2 _ (upload_reach hR1 _) (fun p hp => hu p (by simp [hp])) _ hfound]
    exact hv2
  · exact hv2

/-! ## Subtrees -/

/-- A proper subtree of a well-placed tree: all its spans hang below their parents, and it does not contain the parent
of its root. -/
theorem subtree_wellPlaced {t : ID} {u tr : Tree} (hu : Subtree u tr) (W : WellPlaced t tr) :
    u = tr ∨ (WellPlaced t u ∧ (∀ p c, (p, c) ∈ u.edges → c.id.parent = p.id.span) ∧
      ∀ sp ∈ u.spans, sp.id.span ≠ u.span.id.parent) := by
  induction hu with
  | refl => exact Or.inl rfl
  | @child c tr hs hc ih =>
    right
    have hcs : ∀ sp ∈ c.spans, sp ∈ tr.spans := fun sp h => by
      rw [spans_cons]; exact List.mem_cons_of_mem _ (spansList_mem.2 ⟨c, hc, h⟩)
    have hroot : ∀ sp ∈ c.spans, sp.id.span ≠ tr.span.id.span := by
      intro sp h e
      have hn := W.nodup
      rw [spans_cons, List.map_cons, List.nodup_cons] at hn
      exact hn.1 (List.mem_map.2 ⟨sp, spansList_mem.2 ⟨c, hc, h⟩, e⟩)
    have strong : ∀ p d, (p, d) ∈ c.edges → d.id.parent = p.id.span := by
      intro p d h
      rcases W.place p d (edges_sub hc h) with e | ⟨rfl, -⟩
      · exact e
      · exact absurd rfl (hroot _ (edge_mem c _ _ h).1)
    have Wc : WellPlaced t c := by
      refine ⟨fun sp h => W.trace sp (hcs sp h), ?_, fun p d h => Or.inl (strong p d h)⟩
      have hn := W.nodup
      rw [spans_cons, List.map_cons, List.nodup_cons] at hn
      obtain ⟨l1, l2, e⟩ := List.append_of_mem hc
      have sl : ∀ a b : List Tree, Tree.spansList (a ++ b) = Tree.spansList a ++ Tree.spansList b := by
        intro a b
        induction a with
        | nil => rfl
        | cons x a ih => simp [Tree.spansList, ih]
      rw [e, sl, Tree.spansList, List.map_append, List.map_append, List.nodup_append, List.nodup_append] at hn
      exact hn.2.2.1.1
    rcases ih Wc with rfl | h
    · refine ⟨Wc, strong, ?_⟩
      intro sp hsp e
      rcases W.place _ _ (edges_child hc) with h | ⟨-, h⟩
      · exact hroot sp hsp (e.trans h)
      · exact h sp (hcs sp hsp) e
    · exact h

theorem subtree_trueRoot {t : ID} {u tr : Tree} (hu : Subtree u tr) (W : WellPlaced t tr) (hne : u ≠ tr)
    (hz : ∀ sp ∈ u.spans, sp.id.span ≠ 0) : WellPlaced t u ∧ TrueRoot u := by
  obtain ⟨Wu, strong, hp⟩ := (subtree_wellPlaced hu W).resolve_left hne
  refine ⟨Wu, ?_⟩
  intro sp hsp hne'
  refine ⟨?_, hp sp hsp⟩
  rw [spans_cons, List.mem_cons] at hsp
  obtain ⟨a, ha, he⟩ := mem_tail_edge (hsp.resolve_left hne')
  rw [strong a sp he]
  exact hz a ha

end Appdash
