import Verif.Proofs.ChunkedOrder
import Verif.Proofs.Causal

/-!
# C121: the order in which the annotations of a span pass through a `ChunkedCollector`
-/

namespace Appdash.Chunked

/-- The full statement: the underlying collector gets the annotations of every span in the order in which they were collected. -/
def OrderKept : Prop := ∀ cfg s, Reachable cfg s → InOrder s.history

/-- The calls of a run in which a second flush overtakes the first. -/
theorem overtaken : ∃ s, Reachable defaultCfg s ∧ s.pending = [] ∧ s.flushes = [] ∧
    acceptedCalls s.history = [(⟨1, 1, 0⟩, [⟨b!"a", none⟩]), (⟨1, 1, 0⟩, [⟨b!"b", none⟩])] ∧
    deliveredCalls s.history = [(⟨1, 1, 0⟩, [⟨b!"b", none⟩]), (⟨1, 1, 0⟩, [⟨b!"a", none⟩])] := by
  have r1 := Reachable.init.step (.collect _ (⟨1, 1, 0⟩, [⟨b!"a", none⟩]) : Step defaultCfg _ _)
  have r2 := r1.step (.tick _ rfl)
  have r3 := r2.step (.collect _ (⟨1, 1, 0⟩, [⟨b!"b", none⟩]))
  have r4 := r3.step (.flush _)
  have r5 := r4.step (.send _ ⟨1, [(⟨1, 1, 0⟩, [⟨b!"b", none⟩])], []⟩ [⟨0, [(⟨1, 1, 0⟩, [⟨b!"a", none⟩])], []⟩] []
    (⟨1, 1, 0⟩, [⟨b!"b", none⟩]) [] [] none rfl rfl)
  have r6 := r5.step (.flushEnd _ ⟨1, [], []⟩ [⟨0, [(⟨1, 1, 0⟩, [⟨b!"a", none⟩])], []⟩] [] rfl rfl (by intro g h; cases h; decide))
  have r7 := r6.step (.send _ ⟨0, [(⟨1, 1, 0⟩, [⟨b!"a", none⟩])], []⟩ [] [] (⟨1, 1, 0⟩, [⟨b!"a", none⟩]) [] [] none rfl rfl)
  have r8 := r7.step (.bgFlushEnd _ ⟨0, [], []⟩ [] [] rfl rfl rfl)
  exact ⟨_, r8, rfl, rfl, rfl, rfl⟩

/-- C121 is false of the code: when `Flush` is called while the background goroutine flushes, the later annotation may arrive first. -/
theorem order_not_kept : ¬ OrderKept := by
  intro h
  obtain ⟨s, hs, -, -, h1, h2⟩ := overtaken
  have := h _ s hs ⟨1, 1, 0⟩
  rw [h1, h2] at this
  exact absurd this (by decide)

/-- C121, the part that holds: if each flush begins after all earlier ones have ended, the annotations of every span arrive in the order in
which they were collected (without those that were dropped). -/
theorem order_kept_partial (cfg : Cfg) (s : State) (h : Reachable cfg s) (ho : OneAtATime s.history) : InOrder s.history := by
  intro id
  have := (ord_inv h ho).order id
  rw [List.append_assoc] at this
  exact (List.sublist_append_left _ _).trans this

/-- C121, the part that holds: so they do if `Flush` is called by nobody but the background goroutine. -/
theorem unflushed_order_partial (cfg : Cfg) (s : State) (h : ReachableUnflushed cfg s) : InOrder s.history :=
  order_kept_partial cfg s (unflushed_one h).1 (unflushed_one h).2.one

/-- C121, the part that holds: and when everything has been handed on and nothing was dropped, the underlying collector has got exactly the
annotations collected for each span, in the same order. -/
theorem all_in_order_partial (cfg : Cfg) (s : State) (h : Reachable cfg s) (ho : OneAtATime s.history) (hq : s.pending = [])
    (hf : ∀ F ∈ s.flushes, F.remaining = []) (hd : droppedCalls s.history = []) (id : SpanID) :
    annotationsOf id (deliveredCalls s.history) = annotationsOf id (acceptedCalls s.history) := by
  have e : ∀ L : List Delivery, (L.flatMap fun e => if e.1 = id then e.2 else []) = annotationsOf id L := by
    intro L
    induction L with
    | nil => rfl
    | cons d L ih => rw [List.flatMap_cons, ih, annotationsOf_cons]
  have hp := annotations_delivered h hq hf hd id
  rw [e, e] at hp
  exact (order_kept_partial cfg s h ho id).eq_of_length hp.length_eq.symm

/-- A run with two background flushes between which the order is kept; the hypotheses of all three theorems are met. -/
example : ∃ s, ReachableUnflushed defaultCfg s ∧ OneAtATime s.history ∧ s.pending = [] ∧ (∀ F ∈ s.flushes, F.remaining = []) ∧
    droppedCalls s.history = [] ∧ deliveredCalls s.history = [(⟨1, 1, 0⟩, [⟨b!"a", none⟩]), (⟨1, 1, 0⟩, [⟨b!"b", none⟩])] := by
  have r1 := ReachableUnflushed.init.step (.collect _ (⟨1, 1, 0⟩, [⟨b!"a", none⟩]) : Step defaultCfg _ _) (fun h => absurd rfl h)
  have r2 := r1.step (.tick _ rfl) (fun _ => ⟨rfl, rfl⟩)
  have r3 := r2.step (.collect _ (⟨1, 1, 0⟩, [⟨b!"b", none⟩])) (fun h => absurd rfl h)
  have r4 := r3.step (.send _ ⟨0, [(⟨1, 1, 0⟩, [⟨b!"a", none⟩])], []⟩ [] [] (⟨1, 1, 0⟩, [⟨b!"a", none⟩]) [] [] none rfl rfl)
    (fun h => absurd rfl h)
  have r5 := r4.step (.bgFlushEnd _ ⟨0, [], []⟩ [] [] rfl rfl rfl) (fun h => absurd rfl h)
  have r6 := r5.step (.tick _ rfl) (fun _ => ⟨rfl, rfl⟩)
  have r7 := r6.step (.send _ ⟨1, [(⟨1, 1, 0⟩, [⟨b!"b", none⟩])], []⟩ [] [] (⟨1, 1, 0⟩, [⟨b!"b", none⟩]) [] [] none rfl rfl)
    (fun h => absurd rfl h)
  have r8 := r7.step (.bgFlushEnd _ ⟨1, [], []⟩ [] [] rfl rfl rfl) (fun h => absurd rfl h)
  exact ⟨_, r8, (unflushed_one r8).2.one, rfl, by simp [State.flushBegin], rfl, rfl⟩

/-- In the run of `overtaken` the flushes are not one at a time. -/
example : ∃ s, Reachable defaultCfg s ∧ ¬ InOrder s.history ∧ ¬ OneAtATime s.history := by
  obtain ⟨s, hs, -, -, h1, h2⟩ := overtaken
  have hn : ¬ InOrder s.history := by
    intro h
    have := h ⟨1, 1, 0⟩
    rw [h1, h2] at this
    exact absurd this (by decide)
  exact ⟨s, hs, hn, fun ho => hn (order_kept_partial _ s hs ho)⟩

end Appdash.Chunked
