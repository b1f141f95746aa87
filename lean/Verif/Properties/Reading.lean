import Verif.Proofs.Reading
import Verif.Properties.Store

/-!
# Property C145: a trace that is read while spans are collected
-/

namespace Appdash

open Spec

/-- **C145**, as a user would expect it.  Whoever fetches a trace and reads it sees it as it was at one moment from then on, whatever calls
other goroutines make meanwhile. -/
def ReadsOneMoment : Prop :=
  ∀ (ops ops' : List StoreOp) (ms ms' : MemStore) (t : ID) (tr : Tree), MemStore.new.run ops = some ms → ms.ReadWhile t ops' tr ms' →
    ∃ k msk, MemStore.new.run (ops ++ ops'.take k) = some msk ∧ msk.view t = .found tr

/-- Calls before a reading: a root, a span whose parent has not been collected, and another child of the root. -/
def repeatBefore : List StoreOp := [.collect ⟨7, 1, 0⟩ [], .collect ⟨7, 3, 2⟩ [], .collect ⟨7, 4, 1⟩ []]

/-- What is read: span 3 below the root and, after its parent has been collected, below its parent. -/
def repeatRead : Tree :=
  .node ⟨⟨7, 1, 0⟩, []⟩ [.node ⟨⟨7, 3, 2⟩, []⟩ [], .node ⟨⟨7, 4, 1⟩, []⟩ [.node ⟨⟨7, 2, 4⟩, []⟩ [.node ⟨⟨7, 3, 2⟩, []⟩ []]]]

/-- **C145** (a span can be shown twice).  While the first child of the root is read, the parent of this child is collected. -/
theorem reading_repeats : ∃ ms ms', MemStore.new.run repeatBefore = some ms ∧
    ms.ReadWhile 7 [.collect ⟨7, 2, 4⟩ []] repeatRead ms' := by
  obtain ⟨ms, h⟩ := collect_never_panics repeatBefore
  obtain ⟨ms', h'⟩ := collect_never_panics (repeatBefore ++ [.collect ⟨7, 2, 4⟩ []])
  have e : (MemStore.new.run repeatBefore).map (fun ms => (ms.tracePtr 7, ms.heap 0, ms.heap 1)) =
      some (some 0, ⟨⟨7, 1, 0⟩, [], [1, 2]⟩, ⟨⟨7, 3, 2⟩, [], []⟩) := by decide_cbv
  have e' : (MemStore.new.run (repeatBefore ++ [.collect ⟨7, 2, 4⟩ []])).map (fun ms => (ms.heap 1, ms.heap 2, ms.heap 3)) =
      some (⟨⟨7, 3, 2⟩, [], []⟩, ⟨⟨7, 4, 1⟩, [], [3]⟩, ⟨⟨7, 2, 4⟩, [], [1]⟩) := by decide_cbv
  rw [h] at e
  rw [h'] at e'
  rw [run_append, h] at h'
  simp only [Option.map_some, Option.some.injEq, Prod.mk.injEq] at e e'
  obtain ⟨p, h0, h1⟩ := e
  obtain ⟨g1, g2, g3⟩ := e'
  refine ⟨ms, ms', h, 0, p, ?_⟩
  have leaf1 : Reads ms [] [1] [.node ⟨⟨7, 3, 2⟩, []⟩ []] ms := by
    have := Reads.cons (ms := ms) (ops₁ := []) (ops₂ := []) (a := 1) rfl rfl (by rw [h1]; exact .nil ms) (.nil ms)
    rw [h1] at this
    exact this
  have leaf2 : Reads ms' [] [1] [.node ⟨⟨7, 3, 2⟩, []⟩ []] ms' := by
    have := Reads.cons (ms := ms') (ops₁ := []) (ops₂ := []) (a := 1) rfl rfl (by rw [g1]; exact .nil ms') (.nil ms')
    rw [g1] at this
    exact this
  have sub3 : Reads ms' [] [3] [.node ⟨⟨7, 2, 4⟩, []⟩ [.node ⟨⟨7, 3, 2⟩, []⟩ []]] ms' := by
    have := Reads.cons (ms := ms') (ops₁ := []) (ops₂ := []) (a := 3) rfl rfl (by rw [g3]; exact leaf2) (.nil ms')
    rw [g3] at this
    exact this
  have sub2 : Reads ms [.collect ⟨7, 2, 4⟩ []] [2] [.node ⟨⟨7, 4, 1⟩, []⟩ [.node ⟨⟨7, 2, 4⟩, []⟩ [.node ⟨⟨7, 3, 2⟩, []⟩ []]]] ms' := by
    have := Reads.cons (ms := ms) (ops₁ := [.collect ⟨7, 2, 4⟩ []]) (ops₂ := []) (a := 2) h' rfl (by rw [g2]; exact sub3) (.nil ms')
    rw [g2] at this
    exact this
  have both : Reads ms [.collect ⟨7, 2, 4⟩ []] [1, 2]
      [.node ⟨⟨7, 3, 2⟩, []⟩ [], .node ⟨⟨7, 4, 1⟩, []⟩ [.node ⟨⟨7, 2, 4⟩, []⟩ [.node ⟨⟨7, 3, 2⟩, []⟩ []]]] ms' := by
    have := Reads.cons (ms := ms) (ops₁ := []) (ops₂ := []) (a := 1) rfl rfl (by rw [h1]; exact .nil ms) sub2
    rw [h1] at this
    exact this
  have := Reads.cons (ms := ms) (ops₁ := []) (ops₂ := []) (a := 0) rfl rfl (by rw [h0]; exact both) (.nil ms')
  rw [h0] at this
  exact this

/-- **C145** fails: at no moment is the trace the tree with the repeated span. -/
theorem reading_not_one_moment : ¬ ReadsOneMoment := by
  intro H
  obtain ⟨ms, ms', h, hr⟩ := reading_repeats
  obtain ⟨k, msk, hk, hv⟩ := H _ _ _ _ _ _ h hr
  rcases trace_finite_tree hk 7 with ⟨-, e⟩ | ⟨-, tr, e, hn, -⟩
  · rw [hv] at e; cases e
  · rw [hv] at e
    injection e with e
    subst e
    revert hn
    decide

/-- **C145**, the other half of the expectation: what the trace shows before and after the reading is read. -/
def ReadsLoseNothing : Prop :=
  ∀ (ops ops' : List StoreOp) (ms ms' : MemStore) (t : ID) (before tr after : Tree), MemStore.new.run ops = some ms →
    ms.view t = .found before → ms.ReadWhile t ops' tr ms' → ms'.view t = .found after →
    ∀ sp ∈ before.spans, sp ∈ after.spans → ∃ sp' ∈ tr.spans, sp'.id = sp.id

/-- **C145** (a span can be lost).  A trace has been fetched while the root was not collected yet; the root is collected before the reading
begins.  The spans that were only provisionally below the first one are not shown. -/
theorem reading_loses : ¬ ReadsLoseNothing := by
  intro H
  obtain ⟨ms, h⟩ := collect_never_panics [.collect ⟨7, 5, 4⟩ [], .collect ⟨7, 6, 9⟩ []]
  obtain ⟨ms', h'⟩ := collect_never_panics ([.collect ⟨7, 5, 4⟩ [], .collect ⟨7, 6, 9⟩ []] ++ [.collect ⟨7, 1, 0⟩ []])
  have e : (MemStore.new.run [.collect ⟨7, 5, 4⟩ [], .collect ⟨7, 6, 9⟩ []]).map (fun ms => (ms.tracePtr 7, ms.view 7)) =
      some (some 0, .found (.node ⟨⟨7, 5, 4⟩, []⟩ [.node ⟨⟨7, 6, 9⟩, []⟩ []])) := by decide_cbv
  have e' : (MemStore.new.run ([.collect ⟨7, 5, 4⟩ [], .collect ⟨7, 6, 9⟩ []] ++ [.collect ⟨7, 1, 0⟩ []])).map
      (fun ms => (ms.heap 0, ms.view 7)) =
      some (⟨⟨7, 5, 4⟩, [], []⟩, .found (.node ⟨⟨7, 1, 0⟩, []⟩ [.node ⟨⟨7, 5, 4⟩, []⟩ [], .node ⟨⟨7, 6, 9⟩, []⟩ []])) := by decide_cbv
  rw [h] at e
  rw [h'] at e'
  rw [run_append, h] at h'
  simp only [Option.map_some, Option.some.injEq, Prod.mk.injEq] at e e'
  have hr : ms.ReadWhile 7 [.collect ⟨7, 1, 0⟩ []] (.node ⟨⟨7, 5, 4⟩, []⟩ []) ms' := by
    refine ⟨0, e.1, ?_⟩
    have := Reads.cons (ms := ms) (ops₁ := [.collect ⟨7, 1, 0⟩ []]) (ops₂ := []) (a := 0) h' rfl (by rw [e'.1]; exact .nil ms') (.nil ms')
    rw [e'.1] at this
    exact this
  obtain ⟨sp, h1, h2⟩ := H _ _ _ _ _ _ _ _ h e.2 hr e'.2 ⟨⟨7, 6, 9⟩, []⟩ (by decide) (by decide)
  revert h1 h2
  simp [Tree.spans, Tree.spansList]
  rintro rfl
  decide

/-- A trace that is read after calls which began when it had been fetched. -/
theorem reading_sample {before calls : List StoreOp} {t : ID} {a : Addr} {tr : Tree} {fuel : Nat}
    (e : ((MemStore.new.run before).map fun ms => ms.tracePtr t) = some (some a))
    (e' : ((MemStore.new.run (before ++ calls)).map fun ms => unfoldNode ms.heap fuel a) = some (some tr)) :
    ∃ ms ms', MemStore.new.run before = some ms ∧ ms.ReadWhile t calls tr ms' := by
  obtain ⟨ms, h⟩ := collect_never_panics before
  obtain ⟨ms', h'⟩ := collect_never_panics (before ++ calls)
  rw [h] at e
  rw [h'] at e'
  rw [run_append, h] at h'
  exact ⟨ms, ms', h, readWhile_after h' (by simpa using e) (by simpa using e')⟩

/-- **C145** (calls for other traces).  If nothing is collected for the trace meanwhile, the trace is read as it was when it was fetched,
even if it is deleted. -/
theorem reading_undisturbed_partial {ops ops' : List StoreOp} {ms ms' : MemStore} (h : MemStore.new.run ops = some ms) {t : ID} {tr : Tree}
    (hr : ms.ReadWhile t ops' tr ms') (hops : ∀ id as, StoreOp.collect id as ∈ ops' → id.trace ≠ t) : ms.view t = .found tr := by
  obtain ⟨a, ha, hr⟩ := hr
  obtain ⟨sm, T, S, H, e⟩ := readWhile_stands h ha
  have R := S.rep
  have hv : ∃ tr', ms.view t = .found tr' ∧ unfoldNode ms.heap ms.next a = some tr' := by
    have St := S.sim t
    rw [S.at_] at St
    obtain ⟨tr', h1, -⟩ := view_found St H.2.2.2.1
    refine ⟨tr', h1, ?_⟩
    simp only [MemStore.view, ha] at h1
    split at h1
    · cases h1
    · rename_i hu
      injection h1 with h1
      rw [hu, h1]
  obtain ⟨tr', h1, h2⟩ := hv
  have := (reads_frame (t := t) (h₀ := ms.heap) (P := fun x => ∃ s, sm.get s = some x) (n₀ := ms.next)
    (fun x ⟨s, hs⟩ => by
      obtain ⟨p, -, hid⟩ := R.id s x hs
      exact ⟨R.lt s x hs, by rw [hid]⟩)
    (fun x ⟨s, hs⟩ c hc => by
      rw [R.sub s x hs, List.mem_map] at hc
      obtain ⟨c', hc', rfl⟩ := hc
      exact ⟨c', R.get_of_dom (R.closed s c' hc')⟩)
    hr S.sim (Nat.le_refl _) (fun _ _ => rfl) hops (by simpa using ⟨_, e⟩)).2 ms.next [tr'] (by simp [h2])
  injection this with this
  rw [h1, this]

-- The trace of the example above, read after it has been deleted and a span of another trace has been collected.
example : ∃ ms ms', MemStore.new.run repeatBefore = some ms ∧
    ms.ReadWhile 7 [.delete [7], .collect ⟨8, 1, 0⟩ []]
      (.node ⟨⟨7, 1, 0⟩, []⟩ [.node ⟨⟨7, 3, 2⟩, []⟩ [], .node ⟨⟨7, 4, 1⟩, []⟩ []]) ms' :=
  reading_sample (a := 0) (fuel := 3) (by decide_cbv) (by decide_cbv)
example : ∀ id as, StoreOp.collect id as ∈ ([.delete [7], .collect ⟨8, 1, 0⟩ []] : List StoreOp) → id.trace ≠ 7 := by
  simp

/-- **C145** (more annotations).  If only annotations of spans that were collected before are added to the trace meanwhile, the tree that is
read has the spans and the shape that the trace has before and after, and the annotations of each span are some of the first ones it has
afterwards, and at least those it had before. -/
theorem reading_annotations_partial {ops ops' : List StoreOp} {ms ms' : MemStore} (h : MemStore.new.run ops = some ms) {t : ID} {tr : Tree}
    (hr : ms.ReadWhile t ops' tr ms') (hk : Keeps t ops')
    (hops : ∀ id as, StoreOp.collect id as ∈ ops' → id.trace = t → Collected (live t ops) id.span) :
    ∃ before after, ms.view t = .found before ∧ ms'.view t = .found after ∧ Between [before] [tr] [after] := by
  obtain ⟨T, sm, hA, H, S, hd, sm', S'⟩ := readWhile_abstract h hr hk
  have St := S.sim t
  rw [S.at_] at St
  obtain ⟨b, b1, b2⟩ := view_found St H.2.2.2.1
  have H' := H.more (live t ops')
  have St' := S'.sim t
  rw [S'.at_] at St'
  obtain ⟨a, a1, a2⟩ := view_found St' H'.2.2.2.1
  have old : ∀ e ∈ live t ops', (T.par e.1.span).isSome = true := by
    intro e he
    obtain ⟨as, h1, h2⟩ := mem_live he
    rw [H.2.1, ← collected_iff]
    exact hops _ _ h1 h2
  obtain ⟨s, p, r, an⟩ := more_old old
  refine ⟨b, a, b1, a1, ?_⟩
  have m1 := Forest.unfold_mono _ b2 (ms.next + ms'.next) (by omega)
  have m2 := Forest.unfold_mono _ a2 (ms.next + ms'.next) (by omega)
  rw [s, r] at m2
  refine areads_between hA old (T.label t) ((T.more (live t ops')).label t) (ms.next + ms'.next) [b] [a] (fun _ => rfl) ?_ ?_ ?_
    (by simp [m1]) (by simp [m2])
  · intro x; simp [ATrace.label, p]
  · intro x; exact List.prefix_refl _
  · intro x; exact List.prefix_refl _

example : ∃ ms ms', MemStore.new.run repeatBefore = some ms ∧
    ms.ReadWhile 7 [.collect ⟨7, 4, 1⟩ [⟨b!"k", b!"v"⟩], .delete [8]]
      (.node ⟨⟨7, 1, 0⟩, []⟩ [.node ⟨⟨7, 3, 2⟩, []⟩ [], .node ⟨⟨7, 4, 1⟩, [⟨b!"k", b!"v"⟩]⟩ []]) ms' :=
  reading_sample (a := 0) (fuel := 3) (by decide_cbv) (by decide_cbv)
example : Keeps 7 [.collect ⟨7, 4, 1⟩ [⟨b!"k", b!"v"⟩], .delete [8]] ∧ Collected (live 7 repeatBefore) 4 :=
  ⟨by intro ids h; simp at h; subst h; decide, by decide⟩

/-- **C145** (what is read was collected).  Whatever is collected meanwhile: every span that is read belongs to the trace and has been
collected with the parent shown; its annotations are those that had been collected for it up to some moment of the reading.  A span is
below its parent, or its parent had not been collected when the trace was fetched. -/
theorem reading_collected_partial {ops ops' : List StoreOp} {ms ms' : MemStore} (h : MemStore.new.run ops = some ms) {t : ID} {tr : Tree}
    (hr : ms.ReadWhile t ops' tr ms') (hk : Keeps t ops') :
    (∀ sp ∈ tr.spans, ∃ L, live t ops <+: L ∧ L <+: live t (ops ++ ops') ∧ sp.id.trace = t ∧
      declaredParent L sp.id.span = some sp.id.parent ∧ sp.annotations = annotationsOf L sp.id.span) ∧
    ∀ a b, (a, b) ∈ tr.edges → b.id.parent = a.id.span ∨ ¬ Collected (live t ops) b.id.parent := by
  obtain ⟨T, sm, hA, H, S, hd, sm', S'⟩ := readWhile_abstract h hr hk
  have hx : ∀ x ∈ [T.root], (T.par x).isSome = true := by simpa using hd
  constructor
  · intro sp hsp
    obtain ⟨K, ⟨K', hK⟩, h1, h2, h3⟩ := areads_sound hA H hx sp (by rw [mem_spansList_cons]; exact Or.inl hsp)
    refine ⟨live t ops ++ K, List.prefix_append _ _, ⟨K', ?_⟩, h1, h2, h3⟩
    rw [live_append _ _ hk, ← hK, List.append_assoc]
  · intro a b hab
    exact areads_edges hA H hx a b (by rw [Tree.edgesList]; exact List.mem_append_left _ hab)

-- `reading_repeats` meets the hypotheses of the two theorems: the spans 3 and 4 were collected before.
example : Keeps 7 [.collect ⟨7, 2, 4⟩ []] ∧ Collected (live 7 repeatBefore) 3 ∧
    live 7 (repeatBefore ++ [.collect ⟨7, 2, 4⟩ []]) = live 7 repeatBefore ++ [(⟨7, 2, 4⟩, [])] :=
  ⟨by intro ids h; simp at h, by decide, by decide⟩

/-- **C145** (no span is lost while the root stays).  If the spans collected meanwhile are no roots and not the parent of the span that is
the root of the trace so far, every span that was collected before is read, unless following its parents runs into a cycle. -/
theorem reading_complete_partial {ops ops' : List StoreOp} {ms ms' : MemStore} (h : MemStore.new.run ops = some ms) {t : ID} {tr before : Tree}
    (hb : ms.view t = .found before) (hr : ms.ReadWhile t ops' tr ms') (hk : Keeps t ops')
    (hops : ∀ id as, StoreOp.collect id as ∈ ops' → id.trace = t →
      Collected (live t ops) id.span ∨ (id.parent ≠ 0 ∧ id.span ≠ before.span.id.parent))
    {s : ID} (hs : Collected (live t ops) s) (hc : ¬ RunsIntoCycle (live t (ops ++ ops')) s) : ∃ sp ∈ tr.spans, sp.id.span = s := by
  obtain ⟨T, sm, hA, H, S, hd, sm', S'⟩ := readWhile_abstract h hr hk
  have hroot := root_parent S H hb
  apply areads_complete_root hA H ?_ hs
  · intro a ha hh
    rw [← live_append _ _ hk] at ha hh
    exact hc ⟨a, ha, hh⟩
  · intro e he
    obtain ⟨as, h1, h2⟩ := mem_live he
    rcases hops _ _ h1 h2 with h | ⟨h, h'⟩
    · left
      rw [H.2.1, ← collected_iff]
      exact h
    · right
      refine ⟨h, ?_⟩
      rw [hroot]
      intro e
      injection e with e
      exact h' e.symm

/-- **C145**, last part of the expectation: reading ends, if nothing is collected any more. -/
def ReadingEnds : Prop :=
  ∀ (ops ops' : List StoreOp) (ms ms' : MemStore) (t : ID) (a : Addr), MemStore.new.run ops = some ms → ms.tracePtr t = some a →
    ms.run ops' = some ms' → ∃ tr, Reads ms' [] [a] [tr] ms'

/-- **C145** (reading may go on for ever).  Two spans name each other as their parent, and their root is collected after the trace has been
fetched: the nodes that have been fetched then form a cycle. -/
theorem reading_may_not_end : ¬ ReadingEnds := by
  intro H
  obtain ⟨ms, h⟩ := collect_never_panics [.collect ⟨7, 5, 4⟩ [], .collect ⟨7, 4, 5⟩ []]
  obtain ⟨ms', h'⟩ := collect_never_panics ([.collect ⟨7, 5, 4⟩ [], .collect ⟨7, 4, 5⟩ []] ++ [.collect ⟨7, 1, 0⟩ []])
  have e : (MemStore.new.run [.collect ⟨7, 5, 4⟩ [], .collect ⟨7, 4, 5⟩ []]).map (fun ms => ms.tracePtr 7) = some (some 1) := by decide_cbv
  have e' : (MemStore.new.run ([.collect ⟨7, 5, 4⟩ [], .collect ⟨7, 4, 5⟩ []] ++ [.collect ⟨7, 1, 0⟩ []])).map
      (fun ms => ((ms.heap 0).sub, (ms.heap 1).sub)) = some ([1], [0]) := by decide_cbv
  rw [h] at e
  rw [h'] at e'
  rw [run_append, h] at h'
  simp only [Option.map_some, Option.some.injEq, Prod.mk.injEq] at e e'
  obtain ⟨tr, hr⟩ := H _ _ _ _ _ _ h e h'
  have no : ∀ {m m' : MemStore} {o : List StoreOp} {as : List Addr} {ts : List Tree}, Reads m o as ts m' → m = ms' → o = [] →
      m' = ms' ∧ ¬ (0 ∈ as ∨ 1 ∈ as) := by
    intro m m' o as ts hr
    induction hr with
    | nil => intro hm _; exact ⟨hm, by simp⟩
    | @cons m m₁ m₂ m₃ m₄ o₁ o₂ o₃ o₄ a as ts us h1 h2 h3 h4 ih3 ih4 =>
      intro hm ho
      simp only [List.append_eq_nil_iff] at ho
      obtain ⟨⟨⟨rfl, rfl⟩, rfl⟩, rfl⟩ := ho
      injection h1 with h1
      injection h2 with h2
      subst h1
      subst h2
      subst hm
      obtain ⟨q3, n3⟩ := ih3 rfl rfl
      obtain ⟨q4, n4⟩ := ih4 q3 rfl
      refine ⟨q4, ?_⟩
      intro hc
      simp only [List.mem_cons] at hc
      have : a = 0 ∨ a = 1 := by
        rcases hc with (h | h) | (h | h)
        · exact Or.inl h.symm
        · exact absurd (Or.inl h) n4
        · exact Or.inr h.symm
        · exact absurd (Or.inr h) n4
      rcases this with rfl | rfl
      · exact n3 (by rw [e'.1]; simp)
      · exact n3 (by rw [e'.2]; simp)
  exact (no hr rfl rfl).2 (by simp)

/-- **C145** (reading ends).  If no span is its own ancestor, what has been fetched can be read to the end, whatever was collected since. -/
theorem reading_ends_partial {ops ops' : List StoreOp} {ms ms' : MemStore} (h : MemStore.new.run ops = some ms) {t : ID} {a : Addr}
    (ha : ms.tracePtr t = some a) (h' : ms.run ops' = some ms') (hk : Keeps t ops') (hc : Acyclic (live t (ops ++ ops'))) :
    ∃ tr, Reads ms' [] [a] [tr] ms' := by
  obtain ⟨sm, T, S, H, e⟩ := readWhile_stands h ha
  obtain ⟨sm', S', em⟩ := S.run h' hk
  have H' := H.more (live t ops')
  rw [← live_append _ _ hk] at H'
  have hd : ((T.more (live t ops')).par T.root).isSome = true := by
    rw [S'.rep.dom, em _ _ e]
    rfl
  have hcol : Collected (live t (ops ++ ops')) T.root := by
    rw [collected_iff, ← H'.2.1]
    exact hd
  obtain ⟨n, hn⟩ := reachable_of_good H' hcol (fun b _ hb => hc b hb)
  have St' := S'.sim t
  rw [S'.at_] at St'
  obtain ⟨tr', -, hu⟩ := view_found St' H'.2.2.2.1
  obtain ⟨tr, htr⟩ := Forest.unfold_isSome ((T.more (live t ops')).label t) ms'.next T.root (fun m x hm => by
    have := Forest.steps_lt_of_unfold _ hu (hn.trans hm)
    omega)
  rw [← unfoldNode_eq S'.rep _ _ hd, Rep.addr_eq (em _ _ e)] at htr
  exact ⟨tr, reads_of_unfold ms'.next [a] [tr] (by simp [htr])⟩

example : ((MemStore.new.run repeatBefore).map fun ms => ms.tracePtr 7) = some (some 0) := by decide_cbv

end Appdash
