import Verif.Model.TimelineScript
import Verif.Spec.TimelineScript
import Verif.Proofs.Links
import Verif.Proofs.Causal
import Verif.Proofs.Upload
import Verif.Properties.Views
import Verif.Proofs.Router

/-!
# Helper lemmas about the timeline's menu
-/

namespace Appdash

open Spec Classical

/-! ## Following the links -/

theorem Spec.Under.lt {data : List TimelineItem} {p : Bytes} {i : Nat} (h : Under data p i) : i < data.length := by
  cases h with
  | child h _ => exact (List.getElem?_eq_some_iff.1 h).1
  | deeper _ _ h _ => exact (List.getElem?_eq_some_iff.1 h).1

theorem Spec.Under.trans {data : List TimelineItem} {p : Bytes} {i j : Nat} {jt : TimelineItem} (h : Under data p j)
    (hj : data[j]? = some jt) (hi : Under data jt.spanID i) : Under data p i := by
  induction hi with
  | child h1 h2 => exact .deeper h hj h1 h2
  | deeper _ h1 h2 h3 ih => exact .deeper ih h1 h2 h3

theorem Spec.Under.head {data : List TimelineItem} {p : Bytes} {i : Nat} (h : Under data p i) :
    ∃ j jt, data[j]? = some jt ∧ jt.parentSpanID = p ∧ (i = j ∨ Under data jt.spanID i) := by
  induction h with
  | child h1 h2 => exact ⟨_, _, h1, h2, .inl rfl⟩
  | @deeper i j it jt _ hj hi e ih =>
    obtain ⟨k, kt, hk, hp, r⟩ := ih
    refine ⟨k, kt, hk, hp, .inr ?_⟩
    rcases r with rfl | r
    · rw [hk] at hj
      injection hj with hj
      subst hj
      exact .child hi e
    · exact .deeper r hj hi e

/-- The number of items under an ID. -/
noncomputable def countUnder (data : List TimelineItem) (p : Bytes) : Nat :=
  (List.range data.length).countP fun i => decide (Under data p i)

theorem countUnder_le (data : List TimelineItem) (p : Bytes) : countUnder data p ≤ data.length := by
  have := List.countP_le_length (p := fun i => decide (Under data p i)) (l := List.range data.length)
  simpa [countUnder] using this

theorem countP_lt {α : Type} {l : List α} {P Q : α → Bool} (h : ∀ x ∈ l, P x = true → Q x = true) {a : α} (ha : a ∈ l)
    (h1 : P a = false) (h2 : Q a = true) : l.countP P < l.countP Q := by
  induction l with
  | nil => cases ha
  | cons x l ih =>
    have hle : l.countP P ≤ l.countP Q := List.countP_mono_left fun y hy => h y (by simp [hy])
    rw [List.countP_cons, List.countP_cons]
    rcases List.mem_cons.1 ha with rfl | ha
    · simp only [h1, h2, if_true]
      simp only [Bool.false_eq_true, if_false]
      omega
    · have := ih (fun y hy => h y (by simp [hy])) ha
      have hx := h x (by simp)
      by_cases hp : P x = true
      · simp only [hp, hx hp, if_true]; omega
      · have hq : l.countP P + 0 < l.countP Q + (if Q x = true then 1 else 0) := by
          split <;> omega
        rw [if_neg hp]
        exact hq

theorem countUnder_lt {data : List TimelineItem} {p : Bytes} {j : Nat} {jt : TimelineItem} (hu : Under data p j)
    (hj : data[j]? = some jt) (hac : ¬ Under data jt.spanID j) : countUnder data jt.spanID < countUnder data p := by
  refine countP_lt (a := j) (fun i _ hi => ?_) (List.mem_range.2 hu.lt) (by simpa using hac) (by simpa using hu)
  exact decide_eq_true (hu.trans hj (of_decide_eq_true hi))

/-- The flags after marking the items under an ID. -/
noncomputable def marked (data : List TimelineItem) (mark : TimelineItem → Bool) (S : Nat → Prop) (vis : Nat → Bool) : Nat → Bool :=
  fun i => if S i then (match data[i]? with | some it => mark it | none => vis i) else vis i

theorem marked_marked (data : List TimelineItem) (mark : TimelineItem → Bool) (S T : Nat → Prop) (vis : Nat → Bool) :
    marked data mark T (marked data mark S vis) = marked data mark (fun i => S i ∨ T i) vis := by
  funext i
  unfold marked
  by_cases h1 : S i <;> by_cases h2 : T i <;> simp only [h1, h2, if_true, if_false, or_true, true_or, or_self]
  cases data[i]? <;> rfl

theorem marked_congr (data : List TimelineItem) (mark : TimelineItem → Bool) {S T : Nat → Prop} (vis : Nat → Bool)
    (h : ∀ i, S i ↔ T i) : marked data mark S vis = marked data mark T vis := by
  have : S = T := funext fun i => propext (h i)
  rw [this]

theorem walk_spec (data : List TimelineItem) (mark : TimelineItem → Bool) : ∀ (n : Nat) (p : Bytes) (vis : Nat → Bool),
    countUnder data p < n → (∀ j jt, Under data p j → data[j]? = some jt → ¬ Under data jt.spanID j) →
    walkChildren data mark n p vis = some (marked data mark (Under data p) vis) := by
  intro n
  induction n with
  | zero => intro p vis h _; omega
  | succ n ih =>
    intro p vis hn hac
    unfold walkChildren
    have loop : ∀ (pre post : List TimelineItem), data = pre ++ post → ∀ vis,
        (post.zipIdx pre.length).foldlM (fun vis (x : TimelineItem × Nat) =>
          if x.1.parentSpanID ≠ p then some vis
          else walkChildren data mark n x.1.spanID fun j => if j = x.2 then mark x.1 else vis j) vis =
        some (marked data mark (fun i => ∃ j jt, pre.length ≤ j ∧ data[j]? = some jt ∧ jt.parentSpanID = p ∧
          (i = j ∨ Under data jt.spanID i)) vis) := by
      intro pre post
      induction post generalizing pre with
      | nil =>
        intro hd vis
        simp only [List.zipIdx_nil, List.foldlM_nil]
        have : marked data mark (fun i => ∃ j jt, pre.length ≤ j ∧ data[j]? = some jt ∧ jt.parentSpanID = p ∧
            (i = j ∨ Under data jt.spanID i)) vis = vis := by
          funext i
          unfold marked
          rw [if_neg]
          rintro ⟨j, jt, h1, h2, -⟩
          have := (List.getElem?_eq_some_iff.1 h2).1
          rw [hd, List.append_nil] at this
          omega
        rw [this]
        rfl
      | cons x post ih' =>
        intro hd vis
        have hx : data[pre.length]? = some x := by rw [hd]; simp
        have hd' : data = (pre ++ [x]) ++ post := by rw [hd]; simp
        have hl : (pre ++ [x]).length = pre.length + 1 := by simp
        have hih := ih' (pre ++ [x]) hd'
        rw [hl] at hih
        rw [List.zipIdx_cons, List.foldlM_cons]
        by_cases hp : x.parentSpanID = p
        · have hu : Under data p pre.length := .child hx hp
          simp only [ne_eq, hp, not_true_eq_false, if_false]
          rw [ih x.spanID _ (Nat.lt_of_lt_of_le (countUnder_lt hu hx (hac _ _ hu hx)) (by omega))
            (fun j jt h1 h2 => hac j jt (hu.trans hx h1) h2)]
          simp only [Option.bind_eq_bind, Option.bind_some]
          rw [hih]
          have e0 : (fun j => if j = pre.length then mark x else vis j) = marked data mark (fun i => i = pre.length) vis := by
            funext j
            unfold marked
            split
            · rename_i h; subst h; simp [hx]
            · rfl
          rw [e0, marked_marked, marked_marked]
          congr 1
          refine marked_congr _ _ _ fun i => ?_
          constructor
          · rintro (rfl | h | ⟨j, jt, h1, h2⟩)
            · exact ⟨_, x, Nat.le_refl _, hx, hp, .inl rfl⟩
            · exact ⟨_, x, Nat.le_refl _, hx, hp, .inr h⟩
            · exact ⟨j, jt, by omega, h2⟩
          · rintro ⟨j, jt, h1, h2, h3, h4⟩
            by_cases hj : j = pre.length
            · subst hj
              rw [hx] at h2
              injection h2 with h2
              subst h2
              exact h4.imp id .inl
            · exact .inr (.inr ⟨j, jt, by omega, h2, h3, h4⟩)
        · simp only [ne_eq, hp, not_false_eq_true, if_true, Option.bind_eq_bind, Option.bind_some]
          rw [hih]
          congr 1
          refine marked_congr _ _ _ fun i => ?_
          constructor
          · rintro ⟨j, jt, h1, h2⟩
            exact ⟨j, jt, by omega, h2⟩
          · rintro ⟨j, jt, h1, h2, h3, h4⟩
            refine ⟨j, jt, ?_, h2, h3, h4⟩
            by_cases hj : j = pre.length
            · subst hj
              rw [hx] at h2
              injection h2 with h2
              subst h2
              exact absurd h3 hp
            · omega
    have := loop [] data rfl vis
    rw [show ([] : List TimelineItem).length = 0 from rfl] at this
    rw [this]
    congr 1
    refine marked_congr _ _ _ fun i => ?_
    constructor
    · rintro ⟨j, jt, -, h2, h3, rfl | h4⟩
      · exact .child h2 h3
      · exact (Under.child h2 h3).trans h2 h4
    · intro h
      obtain ⟨j, jt, h1, h2, h3⟩ := h.head
      exact ⟨j, jt, Nat.zero_le _, h1, h2, h3⟩

/-- If the walk ends, then so do the walks from all items under the ID, and with a smaller bound. -/
theorem walk_child {data : List TimelineItem} {mark : TimelineItem → Bool} {n : Nat} {p : Bytes} {vis vis' : Nat → Bool}
    (h : walkChildren data mark (n + 1) p vis = some vis') {j : Nat} {jt : TimelineItem} (hj : data[j]? = some jt)
    (hp : jt.parentSpanID = p) : ∃ v v', walkChildren data mark n jt.spanID v = some v' := by
  unfold walkChildren at h
  have loop : ∀ (post : List (TimelineItem × Nat)) (vis : Nat → Bool), (jt, j) ∈ post →
      post.foldlM (fun vis (x : TimelineItem × Nat) =>
          if x.1.parentSpanID ≠ p then some vis
          else walkChildren data mark n x.1.spanID fun j => if j = x.2 then mark x.1 else vis j) vis = some vis' →
      ∃ v v', walkChildren data mark n jt.spanID v = some v' := by
    intro post
    induction post with
    | nil => intro _ h; cases h
    | cons x post ih =>
      intro vis hm h
      rw [List.foldlM_cons] at h
      rcases List.mem_cons.1 hm with rfl | hm
      · simp only [ne_eq, hp, not_true_eq_false, if_false] at h
        generalize hw : walkChildren data mark n jt.spanID _ = w at h
        cases w with
        | none => cases h
        | some w => exact ⟨_, _, hw⟩
      · generalize (if x.1.parentSpanID ≠ p then some vis
          else walkChildren data mark n x.1.spanID fun j => if j = x.2 then mark x.1 else vis j) = w at h
        cases w with
        | none => cases h
        | some w => exact ih _ hm h
  refine loop _ _ ?_ h
  rw [List.mk_mem_zipIdx_iff_getElem?]
  exact hj

theorem walk_under {data : List TimelineItem} {mark : TimelineItem → Bool} {p : Bytes} {j : Nat} (hu : Under data p j) :
    ∀ {n : Nat} {vis vis' : Nat → Bool}, walkChildren data mark n p vis = some vis' →
      ∀ {jt : TimelineItem}, data[j]? = some jt → ∃ m < n, ∃ v v', walkChildren data mark m jt.spanID v = some v' := by
  induction hu with
  | child h1 h2 =>
    intro n vis vis' h jt hj
    rw [h1] at hj
    injection hj with hj
    subst hj
    cases n with
    | zero => simp [walkChildren] at h
    | succ n => exact ⟨n, by omega, walk_child h h1 h2⟩
  | deeper _ h1 h2 h3 ih =>
    intro n vis vis' h jt hj
    rw [h2] at hj
    injection hj with hj
    subst hj
    obtain ⟨m, hm, v, v', hw⟩ := ih h h1
    cases m with
    | zero => simp [walkChildren] at hw
    | succ m => exact ⟨m, by omega, walk_child hw h2 h3⟩

/-- A cycle of parent links makes the walk endless. -/
theorem walk_cycle {data : List TimelineItem} {mark : TimelineItem → Bool} {p : Bytes} {j : Nat} {jt : TimelineItem}
    (hu : Under data p j) (hj : data[j]? = some jt) (hc : Under data jt.spanID j) :
    ∀ (n : Nat) (vis : Nat → Bool), walkChildren data mark n p vis = none := by
  have key : ∀ (n : Nat) (vis : Nat → Bool), walkChildren data mark n jt.spanID vis = none := by
    intro n
    induction n using Nat.strongRecOn with
    | _ n ih =>
      intro vis
      cases hw : walkChildren data mark n jt.spanID vis with
      | none => rfl
      | some w =>
        obtain ⟨m, hm, v, v', h⟩ := walk_under hc hw hj
        rw [ih m hm v] at h
        cases h
  intro n vis
  cases hw : walkChildren data mark n p vis with
  | none => rfl
  | some w =>
    obtain ⟨m, hm, v, v', h⟩ := walk_under hu hw hj
    rw [key m v] at h
    cases h

/-! ## Trees -/

/-- `a` comes before `b` in a list. -/
def Before {α : Type} (l : List α) (a b : α) : Prop := ∃ l1 l2, l = l1 ++ a :: l2 ∧ b ∈ l2

theorem Before.append_left {α : Type} {l : List α} {a b : α} (h : Before l a b) (l' : List α) : Before (l' ++ l) a b := by
  obtain ⟨l1, l2, rfl, h⟩ := h
  exact ⟨l' ++ l1, l2, by simp, h⟩

theorem Before.append_right {α : Type} {l : List α} {a b : α} (h : Before l a b) (l' : List α) : Before (l ++ l') a b := by
  obtain ⟨l1, l2, rfl, h⟩ := h
  exact ⟨l1, l2 ++ l', by simp, by simp [h]⟩

theorem suffix_unique {α : Type} {b : α} : ∀ {l m k k' : List α}, l ++ b :: k = m ++ b :: k' → b ∉ l → b ∉ m → k = k'
  | [], [], _, _, h, _, _ => by simpa using h
  | [], y :: m, _, _, h, _, hm => by
    simp only [List.nil_append, List.cons_append, List.cons.injEq] at h
    exact absurd h.1 fun e => hm (by simp [e])
  | x :: l, [], _, _, h, hl, _ => by
    simp only [List.nil_append, List.cons_append, List.cons.injEq] at h
    exact absurd h.1 fun e => hl (by simp [e])
  | x :: l, y :: m, _, _, h, hl, hm => by
    simp only [List.cons_append, List.cons.injEq] at h
    exact suffix_unique h.2 (fun e => hl (by simp [e])) fun e => hm (by simp [e])

theorem Before.trans {α : Type} {l : List α} (hl : l.Nodup) {a b c : α} (h : Before l a b) (h' : Before l b c) : Before l a c := by
  obtain ⟨l1, l2, rfl, h⟩ := h
  obtain ⟨m1, m2, e, h'⟩ := h'
  obtain ⟨k1, k2, rfl⟩ := List.append_of_mem h
  refine ⟨l1, k1 ++ b :: k2, rfl, ?_⟩
  have e' : (l1 ++ a :: k1) ++ b :: k2 = m1 ++ b :: m2 := by rw [← e]; simp
  have hb1 : b ∉ l1 ++ a :: k1 := by
    intro hb
    have : ((l1 ++ a :: k1) ++ b :: k2).Nodup := by
      rw [e', ← e]; exact hl
    exact (List.nodup_append.1 this).2.2 b hb b (by simp) rfl
  have hb2 : b ∉ m1 := by
    intro hb
    rw [e] at hl
    exact (List.nodup_append.1 hl).2.2 b hb b (by simp) rfl
  rw [suffix_unique e' hb1 hb2]
  simp [h']

theorem Before.ne {α : Type} {l : List α} (hl : l.Nodup) {a b : α} (h : Before l a b) : a ≠ b := by
  obtain ⟨l1, l2, rfl, h⟩ := h
  rintro rfl
  have := (List.nodup_append.1 hl).2.1
  exact (List.nodup_cons.1 this).1 h

mutual
theorem edge_before : ∀ (tr : Tree) (p c : Span), (p, c) ∈ tr.edges → Before tr.spans p c
  | .node s ts, p, c, h => by
    rw [edges_def] at h
    simp only [Tree.sub, Tree.span, List.mem_append, List.mem_map] at h
    rcases h with ⟨d, hd, e⟩ | h
    · injection e with e1 e2
      subst e1 e2
      refine ⟨[], Tree.spansList ts, rfl, ?_⟩
      exact spansList_mem.2 ⟨d, hd, span_mem_spans d⟩
    · exact (edgeList_before ts p c h).append_left [s]
theorem edgeList_before : ∀ (ts : List Tree) (p c : Span), (p, c) ∈ Tree.edgesList ts → Before (Tree.spansList ts) p c
  | [], p, c, h => by simp [Tree.edgesList] at h
  | t :: ts, p, c, h => by
    simp only [Tree.edgesList, List.mem_append] at h
    simp only [Tree.spansList]
    rcases h with h | h
    · exact (edge_before t p c h).append_right _
    · exact (edgeList_before ts p c h).append_left _
end

theorem nodup_of_map {α β : Type} {f : α → β} {l : List α} (h : (l.map f).Nodup) : l.Nodup := List.Nodup.of_map f h

theorem below_before {t : ID} {tr : Tree} (W : WellPlaced t tr) {a b : Span} (h : Below tr a b) : Before tr.spans a b := by
  have hn : tr.spans.Nodup := nodup_of_map W.nodup
  induction h with
  | child h => exact edge_before tr _ _ h
  | deeper _ h ih => exact ih.trans hn (edge_before tr _ _ h)

theorem below_mem {tr : Tree} {a b : Span} (h : Below tr a b) : a ∈ tr.spans ∧ b ∈ tr.spans := by
  induction h with
  | child h =>
    have := edge_mem tr _ _ h
    exact ⟨this.1, by cases tr; exact List.mem_cons_of_mem _ this.2⟩
  | deeper _ h ih =>
    have := edge_mem tr _ _ h
    exact ⟨ih.1, by cases tr; exact List.mem_cons_of_mem _ this.2⟩

mutual
/-- The parent of a shown span is shown. -/
theorem shown_parent (env : ViewEnv) : ∀ (tr : Tree) (d : Nat), tr.spans.Nodup → ∀ (x : Nat × Span) (p : Span),
    x ∈ shown env d tr → (p, x.2) ∈ tr.edges → ∃ d', (d', p) ∈ shown env d tr
  | .node s ts, d, hn, x, p, hx, he => by
    unfold shown at hx ⊢
    split at hx
    · rename_i ht
      simp only [ht, if_true]
      rw [edges_def] at he
      simp only [Tree.sub, Tree.span, List.mem_append, List.mem_map] at he
      simp only [Tree.spans, List.nodup_cons] at hn
      rcases he with ⟨c, -, e⟩ | he
      · injection e with e1 e2
        subst e1
        exact ⟨d, by simp⟩
      · have hmem := (edgeList_mem ts p x.2 he).2
        rcases List.mem_cons.1 hx with rfl | hx
        · exact absurd hmem hn.1
        · obtain ⟨d', h⟩ := shownList_parent env ts (d + 1) hn.2 x p hx he
          exact ⟨d', by simp [h]⟩
    · simp at hx
theorem shownList_parent (env : ViewEnv) : ∀ (ts : List Tree) (d : Nat), (Tree.spansList ts).Nodup → ∀ (x : Nat × Span) (p : Span),
    x ∈ shownList env d ts → (p, x.2) ∈ Tree.edgesList ts → ∃ d', (d', p) ∈ shownList env d ts
  | [], d, hn, x, p, hx, he => by simp [shownList] at hx
  | t :: ts, d, hn, x, p, hx, he => by
    simp only [shownList, List.mem_append] at hx ⊢
    simp only [Tree.spansList, List.nodup_append] at hn
    simp only [Tree.edgesList, List.mem_append] at he
    rcases hx with hx | hx
    · rcases he with he | he
      · obtain ⟨d', h⟩ := shown_parent env t d hn.1 x p hx he
        exact ⟨d', .inl h⟩
      · exact absurd rfl (hn.2.2 _ (mem_shown env t d x hx) _ (edgeList_mem ts p x.2 he).2)
    · rcases he with he | he
      · have : x.2 ∈ t.spans := by
          have := (edge_mem t p x.2 he).2
          cases t
          exact List.mem_cons_of_mem _ this
        exact absurd rfl (hn.2.2 _ this _ (mem_shownList env ts d x hx))
      · obtain ⟨d', h⟩ := shownList_parent env ts d hn.2.1 x p hx he
        exact ⟨d', .inr h⟩
end

/-! ## The timeline of a well-placed trace -/

theorem item_span {env : ViewEnv} {tr : Tree} {items : List TimelineItem} (h : d3timeline env tr = some (.ok items)) {i : Nat}
    {it : TimelineItem} (hi : items[i]? = some it) : ∃ d s, (d, s) ∈ shown env 0 tr ∧ ItemOf d s it := by
  obtain ⟨-, h2⟩ := timeline_ok env tr items h
  obtain ⟨x, hx, -, hit, -⟩ := forall₂_mem_right h2 (List.mem_of_getElem? hi)
  exact ⟨x.1, x.2, hx, hit⟩

theorem forall₂_mem_left {α β : Type} {R : α → β → Prop} : ∀ {l : List α} {l' : List β}, List.Forall₂ R l l' → ∀ {a : α}, a ∈ l →
    ∃ b ∈ l', R a b
  | _, _, .nil, _, h => by cases h
  | _, _, .cons h1 h2, a, h => by
    rcases List.mem_cons.1 h with rfl | h
    · exact ⟨_, by simp, h1⟩
    · obtain ⟨b, hb, r⟩ := forall₂_mem_left h2 h
      exact ⟨b, by simp [hb], r⟩

theorem span_item {env : ViewEnv} {tr : Tree} {items : List TimelineItem} (h : d3timeline env tr = some (.ok items)) {d : Nat} {s : Span}
    (hs : (d, s) ∈ shown env 0 tr) : ∃ (i : Nat) (it : TimelineItem), items[i]? = some it ∧ ItemOf d s it := by
  obtain ⟨-, h2⟩ := timeline_ok env tr items h
  obtain ⟨it, hit, -, r, -⟩ := forall₂_mem_left h2 hs
  obtain ⟨i, hi⟩ := List.mem_iff_getElem?.1 hit
  exact ⟨i, it, hi, r⟩

/-- A shown span whose declared parent is `q` is below `q`. -/
theorem parent_edge {t : ID} {tr : Tree} (W : WellPlaced t tr) (hroot : ∀ s ∈ tr.spans, s.id.span ≠ tr.span.id.parent) {q s : Span}
    (hq : q ∈ tr.spans) (hs : s ∈ tr.spans) (h : s.id.parent = q.id.span) : (q, s) ∈ tr.edges := by
  rcases root_or_edge s tr hs with rfl | ⟨p, he⟩
  · exact absurd h.symm (hroot q hq)
  · rcases W.place p s he with e | ⟨-, e⟩
    · have := span_unique W.nodup (edge_mem tr p s he).1 hq (e.symm.trans h)
      subst this
      exact he
    · exact absurd h.symm (e q hq)

theorem toText_inj {a b : ID} (h : a.toText = b.toText) : a = b := by
  have := parseID_toText a
  rw [h, parseID_toText b] at this
  injection this with this
  exact this.symm

theorem parent_text {d : Nat} {s : Span} {it : TimelineItem} (h : ItemOf d s it) {q : ID} (e : it.parentSpanID = q.toText) :
    s.id.parent = q := by
  rw [h.parentSpanID] at e
  split at e
  · exact absurd e.symm (toText_ne_nil q)
  · exact toText_inj e

theorem under_below {t : ID} {tr : Tree} (W : WellPlaced t tr) (hroot : ∀ s ∈ tr.spans, s.id.span ≠ tr.span.id.parent) {env : ViewEnv}
    {items : List TimelineItem} (h : d3timeline env tr = some (.ok items)) {q : Span} (hq : q ∈ tr.spans) {i : Nat}
    (hu : Under items q.id.span.toText i) : ∀ {it : TimelineItem}, items[i]? = some it →
      ∃ d s, (d, s) ∈ shown env 0 tr ∧ ItemOf d s it ∧ Below tr q s := by
  induction hu with
  | child h1 h2 =>
    intro it hi
    rw [h1] at hi
    injection hi with hi
    subst hi
    obtain ⟨d, s, hs, hit⟩ := item_span h h1
    exact ⟨d, s, hs, hit, .child (parent_edge W hroot hq (mem_shown env tr 0 _ hs) (parent_text hit h2))⟩
  | deeper _ h1 h2 h3 ih =>
    intro it hi
    rw [h2] at hi
    injection hi with hi
    subst hi
    obtain ⟨d, p, hp, hpt, hb⟩ := ih h1
    obtain ⟨d', s, hs, hit⟩ := item_span h h2
    rw [hpt.spanID] at h3
    exact ⟨d', s, hs, hit, .deeper hb (parent_edge W hroot (below_mem hb).2 (mem_shown env tr 0 _ hs) (parent_text hit h3))⟩

/-- The converse, if the declared parents of all spans below `q` are in the trace. -/
theorem below_under {t : ID} {tr : Tree} (W : WellPlaced t tr) {env : ViewEnv} {items : List TimelineItem}
    (h : d3timeline env tr = some (.ok items)) {q : Span}
    (hz : ∀ s ∈ tr.spans, s.id.span ≠ 0) (ho : q ≠ tr.span ∨ ∀ s ∈ tr.spans, s ≠ tr.span → ∃ p ∈ tr.spans, p.id.span = s.id.parent) {s : Span} (hb : Below tr q s) :
    ∀ {d : Nat} {i : Nat} {it : TimelineItem}, (d, s) ∈ shown env 0 tr → items[i]? = some it → it.spanID = s.id.span.toText →
      Under items q.id.span.toText i := by
  have hn : tr.spans.Nodup := nodup_of_map W.nodup
  have declared : ∀ {p c : Span}, (p = q ∨ Below tr q p) → (p, c) ∈ tr.edges → c.id.parent = p.id.span := by
    intro p c hp he
    rcases W.place p c he with e | ⟨e1, e2⟩
    · exact e
    · have hc : c ∈ tr.spans := (below_mem (Below.child he)).2
      have hcr : c ≠ tr.span := by
        intro e
        have := Before.ne hn (edge_before tr p c he)
        exact this (e1.trans e.symm)
      exfalso
      rcases ho with ho | ho
      · rcases hp with rfl | hp
        · exact ho e1
        · have hbe := below_before W hp
          rw [e1] at hbe
          obtain ⟨l1, l2, e, hm⟩ := hbe
          cases tr with
          | node s0 ts =>
            simp only [Tree.spans, Tree.span] at e hm hn
            have hnn := (List.nodup_cons.1 hn).1
            cases l1 with
            | nil =>
              simp only [List.nil_append, List.cons.injEq] at e
              exact ho e.1.symm
            | cons x l1 =>
              simp only [List.cons_append, List.cons.injEq] at e
              apply hnn
              rw [e.2]
              simp [hm]
      · obtain ⟨p', hp', e⟩ := ho c hc hcr
        exact e2 p' hp' e
  have item : ∀ {i : Nat} {it : TimelineItem} {s p : Span}, s ∈ tr.spans → items[i]? = some it →
      it.spanID = s.id.span.toText → s.id.parent = p.id.span → p ∈ tr.spans → it.parentSpanID = p.id.span.toText := by
    intro i it s p hs hi e1 e2 e3
    obtain ⟨d', s', hs', hit⟩ := item_span h hi
    have : s' = s := span_unique W.nodup (mem_shown env tr 0 _ hs') hs (toText_inj (hit.spanID.symm.trans e1))
    subst this
    rw [hit.parentSpanID, e2, if_neg (hz p e3)]
  induction hb with
  | child he =>
    intro d i it hs hi e
    exact .child hi (item (mem_shown env tr 0 _ hs) hi e (declared (.inl rfl) he) (edge_mem tr _ _ he).1)
  | deeper hb he ih =>
    intro d i it hs hi e
    obtain ⟨d', hp⟩ := shown_parent env tr 0 hn _ _ hs he
    obtain ⟨j, jt, hj, hjt⟩ := span_item h hp
    exact .deeper (ih hp hj hjt.spanID) hj hi
      ((item (mem_shown env tr 0 _ hs) hi e (declared (.inr hb) he) (edge_mem tr _ _ he).1).trans hjt.spanID.symm)

/-- No item is under itself. -/
theorem no_cycle {t : ID} {tr : Tree} (W : WellPlaced t tr) (hroot : ∀ s ∈ tr.spans, s.id.span ≠ tr.span.id.parent) {env : ViewEnv}
    {items : List TimelineItem} (h : d3timeline env tr = some (.ok items)) {j : Nat} {jt : TimelineItem}
    (hj : items[j]? = some jt) : ¬ Under items jt.spanID j := by
  intro hu
  obtain ⟨d, s, hs, hit⟩ := item_span h hj
  rw [hit.spanID] at hu
  have hsm := mem_shown env tr 0 _ hs
  obtain ⟨d', s', hs', hit', hb⟩ := under_below W hroot h hsm hu hj
  have : s' = s := span_unique W.nodup (mem_shown env tr 0 _ hs') hsm (toText_inj (hit'.spanID.symm.trans hit.spanID))
  subst this
  exact (below_before W hb).ne (nodup_of_map W.nodup) rfl

end Appdash
