import Verif.Spec.Python

/-!
# Lemmas about the Twisted collector of the Python client
-/

namespace Appdash.Py

theorem set_get {α : Type} {l : List α} {i : Nat} {a : α} (h : l[i]? = some a) (b : α) : (l.set i b)[i]? = some b :=
  List.getElem?_set_self (List.getElem?_eq_some_iff.1 h).1

/-! ## Nothing is invented -/

/-- Every packet held anywhere was collected by some factory. -/
structure TwKnown (s : Tw) : Prop where
  shared : ∀ p ∈ s.shared, ∃ f, (f, p) ∈ s.calls
  pending : ∀ F ∈ s.factories, ∀ l, F.pending = some l → ∀ p ∈ l, ∃ f, (f, p) ∈ s.calls
  written : ∀ q ∈ s.protos, ∀ p ∈ q.written, ∃ f, (f, p) ∈ s.calls

theorem TwKnown.init : TwKnown {} := ⟨by simp, by simp, by simp⟩

theorem TwKnown.step {s : Tw} (h : TwKnown s) (op : TwOp) : TwKnown (s.step op) := by
  obtain ⟨h1, h2, h3⟩ := h
  cases op with
  | newFactory =>
    refine ⟨h1, ?_, h3⟩
    intro F hF l hl
    rcases List.mem_append.1 hF with hF | hF
    · exact h2 F hF l hl
    · rw [List.mem_singleton] at hF; subst hF; cases hl
  | collect f p =>
    simp only [Tw.step]
    cases hf : s.factories[f]? with
    | none => exact ⟨h1, h2, h3⟩
    | some F =>
      have up : ∀ {x : Packet}, (∃ g, (g, x) ∈ s.calls) → ∃ g, (g, x) ∈ s.calls ++ [(f, p)] :=
        fun ⟨g, hg⟩ => ⟨g, List.mem_append_left _ hg⟩
      have me : ∃ g, (g, p) ∈ s.calls ++ [(f, p)] := ⟨f, by simp⟩
      cases hp : F.pending with
      | none =>
        simp only [hp]
        refine ⟨?_, fun G hG l hl x hx => up (h2 G hG l hl x hx), fun q hq x hx => up (h3 q hq x hx)⟩
        intro x hx
        rcases List.mem_append.1 hx with hx | hx
        · exact up (h1 x hx)
        · rw [List.mem_singleton] at hx; subst hx; exact me
      | some l =>
        simp only [hp]
        refine ⟨fun x hx => up (h1 x hx), ?_, fun q hq x hx => up (h3 q hq x hx)⟩
        intro G hG l' hl' x hx
        rcases List.mem_or_eq_of_mem_set hG with hG | rfl
        · exact up (h2 G hG l' hl' x hx)
        · simp only [Option.some.injEq] at hl'
          subst hl'
          rcases List.mem_append.1 hx with hx | hx
          · exact up (h2 F (List.mem_of_getElem? hf) l hp x hx)
          · rw [List.mem_singleton] at hx; subst hx; exact me
  | connect f =>
    simp only [Tw.step]
    cases hf : s.factories[f]? with
    | none => exact ⟨h1, h2, h3⟩
    | some F =>
      refine ⟨h1, ?_, ?_⟩
      · intro G hG l hl
        rcases List.mem_or_eq_of_mem_set hG with hG | rfl
        · exact h2 G hG l hl
        · exact h2 F (List.mem_of_getElem? hf) l hl
      · intro q hq
        rcases List.mem_append.1 hq with hq | hq
        · exact h3 q hq
        · rw [List.mem_singleton] at hq; subst hq; simp
  | lost c =>
    simp only [Tw.step]
    cases hc : s.protos[c]? with
    | none => exact ⟨h1, h2, h3⟩
    | some q =>
      refine ⟨h1, h2, ?_⟩
      intro q' hq'
      rcases List.mem_or_eq_of_mem_set hq' with hq' | rfl
      · exact h3 q' hq'
      · exact h3 q (List.mem_of_getElem? hc)
  | flush f =>
    simp only [Tw.step]
    cases hf : s.factories[f]? with
    | none => exact ⟨h1, h2, h3⟩
    | some F =>
      simp only
      split
      · exact ⟨h1, h2, h3⟩
      · cases hr : F.remote with
        | none => exact ⟨h1, h2, h3⟩
        | some c =>
          simp only
          cases hc : s.protos[c]? with
          | none => exact ⟨h1, h2, h3⟩
          | some q =>
            simp only
            refine ⟨h1, ?_, ?_⟩
            · intro G hG l hl
              rcases List.mem_or_eq_of_mem_set hG with hG | rfl
              · exact h2 G hG l hl
              · simp only [Option.some.injEq] at hl; subst hl; simp
            · intro q' hq' x hx
              split at hq'
              · rcases List.mem_or_eq_of_mem_set hq' with hq' | rfl
                · exact h3 q' hq' x hx
                · rcases List.mem_append.1 hx with hx | hx
                  · exact h3 q (List.mem_of_getElem? hc) x hx
                  · cases hp : F.pending with
                    | none => rw [hp] at hx; exact h1 x hx
                    | some l => rw [hp] at hx; exact h2 F (List.mem_of_getElem? hf) l hp x hx
              · exact h3 q' hq' x hx

theorem TwKnown.run {s : Tw} (h : TwKnown s) (ops : List TwOp) : TwKnown (s.run ops) := by
  induction ops generalizing s with
  | nil => exact h
  | cons op ops ih => exact ih (h.step op)

/-! ## Nothing is lost while connections are up -/

/-- The connection of a factory is its own, and every packet was written or is pending. -/
structure TwKept (s : Tw) : Prop where
  own : ∀ (f : Nat) (F : Factory) (c : Nat), s.factories[f]? = some F → F.remote = some c → ∃ q : Proto, s.protos[c]? = some q ∧ q.owner = f
  kept : ∀ (f : Nat) (p : Packet), (f, p) ∈ s.calls → ∃ F : Factory, s.factories[f]? = some F ∧ (p ∈ writtenBy s f ∨ p ∈ F.pending.getD s.shared)

theorem TwKept.init : TwKept {} := ⟨by simp, by simp⟩

theorem mem_writtenBy {s : Tw} {f : Nat} {p : Packet} : p ∈ writtenBy s f ↔ ∃ q ∈ s.protos, q.owner = f ∧ p ∈ q.written := by
  unfold writtenBy
  rw [List.mem_flatMap]
  constructor
  · rintro ⟨q, h1, h2⟩
    split at h2
    · rename_i h; exact ⟨q, h1, h, h2⟩
    · cases h2
  · rintro ⟨q, h1, h2, h3⟩
    exact ⟨q, h1, by simp [h2, h3]⟩

theorem TwKept.step {s : Tw} (h : TwKept s) (op : TwOp) (hu : ∀ f, op = .flush f → Up s f) : TwKept (s.step op) := by
  obtain ⟨h1, h2⟩ := h
  have hlt : ∀ {f : Nat} {F : Factory}, s.factories[f]? = some F → f < s.factories.length :=
    fun h => (List.getElem?_eq_some_iff.1 h).1
  cases op with
  | newFactory =>
    refine ⟨?_, ?_⟩
    · intro f F c hf hc
      simp only [Tw.step, List.getElem?_append] at hf
      split at hf
      · exact h1 f F c hf hc
      · rw [List.getElem?_singleton] at hf
        split at hf
        · cases hf; cases hc
        · cases hf
    · intro f p hp
      obtain ⟨F, hF, hw⟩ := h2 f p hp
      exact ⟨F, by simp only [Tw.step]; rw [List.getElem?_append_left (hlt hF)]; exact hF, hw⟩
  | collect f p =>
    simp only [Tw.step]
    cases hf : s.factories[f]? with
    | none => exact ⟨h1, h2⟩
    | some F =>
      cases hp : F.pending with
      | none =>
        simp only [hp]
        refine ⟨h1, ?_⟩
        intro g x hx
        have grow : ∀ {G : Factory}, x ∈ G.pending.getD s.shared → x ∈ G.pending.getD (s.shared ++ [p]) := by
          intro G hG
          cases e : G.pending with
          | none => rw [e] at hG; exact List.mem_append_left _ hG
          | some l => rw [e] at hG; exact hG
        rcases List.mem_append.1 hx with hx | hx
        · obtain ⟨G, hG, hw⟩ := h2 g x hx
          exact ⟨G, hG, hw.imp id grow⟩
        · simp only [List.mem_singleton, Prod.mk.injEq] at hx
          obtain ⟨rfl, rfl⟩ := hx
          exact ⟨F, hf, .inr (by rw [hp]; simp)⟩
      | some l =>
        simp only [hp]
        refine ⟨?_, ?_⟩
        · intro g G c hg hc
          rw [List.getElem?_set] at hg
          split at hg
          · rename_i e
            subst e
            split at hg
            · cases hg; exact h1 f F c hf hc
            · cases hg
          · exact h1 g G c hg hc
        · intro g x hx
          rcases List.mem_append.1 hx with hx | hx
          · obtain ⟨G, hG, hw⟩ := h2 g x hx
            by_cases e : f = g
            · subst e
              rw [hf] at hG
              cases hG
              refine ⟨_, set_get hf _, hw.imp id fun h => ?_⟩
              rw [hp] at h
              exact List.mem_append_left _ h
            · exact ⟨G, (List.getElem?_set_ne e).trans hG, hw⟩
          · simp only [List.mem_singleton, Prod.mk.injEq] at hx
            obtain ⟨rfl, rfl⟩ := hx
            exact ⟨_, set_get hf _, .inr (by simp)⟩
  | connect f =>
    simp only [Tw.step]
    cases hf : s.factories[f]? with
    | none => exact ⟨h1, h2⟩
    | some F =>
      refine ⟨?_, ?_⟩
      · intro g G c hg hc
        rw [List.getElem?_set] at hg
        split at hg
        · rename_i e
          subst e
          split at hg
          · cases hg
            cases hc
            exact ⟨⟨f, true, []⟩, by simp, rfl⟩
          · cases hg
        · obtain ⟨q, hq, ho⟩ := h1 g G c hg hc
          exact ⟨q, by rw [List.getElem?_append_left (List.getElem?_eq_some_iff.1 hq).1]; exact hq, ho⟩
      · intro g x hx
        obtain ⟨G, hG, hw⟩ := h2 g x hx
        have hw' : x ∈ writtenBy { s with
            factories := s.factories.set f { F with remote := some s.protos.length }, protos := s.protos ++ [⟨f, true, []⟩] } g ∨
            x ∈ G.pending.getD s.shared := by
          refine hw.imp (fun h => ?_) id
          obtain ⟨q, q1, q2⟩ := mem_writtenBy.1 h
          exact mem_writtenBy.2 ⟨q, List.mem_append_left _ q1, q2⟩
        by_cases e : f = g
        · subst e
          rw [hf] at hG
          cases hG
          exact ⟨_, set_get hf _, hw'⟩
        · exact ⟨G, (List.getElem?_set_ne e).trans hG, hw'⟩
  | lost c =>
    simp only [Tw.step]
    cases hc : s.protos[c]? with
    | none => exact ⟨h1, h2⟩
    | some q =>
      refine ⟨?_, ?_⟩
      · intro g G c' hg hc'
        obtain ⟨q', hq', ho⟩ := h1 g G c' hg hc'
        by_cases e : c = c'
        · subst e
          rw [hc] at hq'
          cases hq'
          exact ⟨_, set_get hc _, ho⟩
        · exact ⟨q', (List.getElem?_set_ne e).trans hq', ho⟩
      · intro g x hx
        obtain ⟨G, hG, hw⟩ := h2 g x hx
        refine ⟨G, hG, hw.imp (fun h => ?_) id⟩
        obtain ⟨q', q1, q2, q3⟩ := mem_writtenBy.1 h
        obtain ⟨i, hi⟩ := List.mem_iff_getElem?.1 q1
        rw [mem_writtenBy]
        by_cases e : c = i
        · subst e
          rw [hc] at hi
          cases hi
          exact ⟨{ q with connected := false }, List.mem_iff_getElem?.2 ⟨c, by simp [(List.getElem?_eq_some_iff.1 hc).1]⟩, q2, q3⟩
        · exact ⟨q', List.mem_iff_getElem?.2 ⟨i, by simp [List.getElem?_set, e, hi]⟩, q2, q3⟩
  | flush f =>
    obtain ⟨⟨pend, rem⟩, c, ⟨ow, con, wr⟩, hf, hr, hc, hup⟩ := hu f rfl
    simp only at hr hup
    subst hr hup
    simp only [Tw.step, hf, hc, if_true]
    split
    · exact ⟨h1, h2⟩
    · obtain ⟨q', hq', ho⟩ := h1 f _ c hf rfl
      rw [hc] at hq'
      cases hq'
      have hcl := (List.getElem?_eq_some_iff.1 hc).1
      refine ⟨?_, ?_⟩
      · intro g G c' hg hc'
        have : ∃ G', s.factories[g]? = some G' ∧ G'.remote = some c' := by
          rw [List.getElem?_set] at hg
          split at hg
          · rename_i e
            subst e
            split at hg
            · cases hg; exact ⟨_, hf, hc'⟩
            · cases hg
          · exact ⟨G, hg, hc'⟩
        obtain ⟨G', e1, e2⟩ := this
        obtain ⟨q'', hq'', ho''⟩ := h1 g G' c' e1 e2
        by_cases e : c = c'
        · subst e
          rw [hc] at hq''
          cases hq''
          exact ⟨_, set_get hc _, ho''⟩
        · exact ⟨q'', (List.getElem?_set_ne e).trans hq'', ho''⟩
      · intro g x hx
        obtain ⟨G, hG, hw⟩ := h2 g x hx
        have mono : x ∈ writtenBy s g → x ∈ writtenBy { s with
            factories := s.factories.set f ⟨some [], some c⟩,
            protos := s.protos.set c ⟨ow, true, wr ++ pend.getD s.shared⟩ } g := by
          intro h
          obtain ⟨q', q1, q2, q3⟩ := mem_writtenBy.1 h
          obtain ⟨i, hi⟩ := List.mem_iff_getElem?.1 q1
          rw [mem_writtenBy]
          by_cases e : c = i
          · subst e
            rw [hc] at hi
            cases hi
            exact ⟨⟨ow, true, wr ++ pend.getD s.shared⟩,
              List.mem_iff_getElem?.2 ⟨c, by simp [hcl]⟩, q2, List.mem_append_left _ q3⟩
          · exact ⟨q', List.mem_iff_getElem?.2 ⟨i, by simp [List.getElem?_set, e, hi]⟩, q2, q3⟩
        by_cases e : f = g
        · subst e
          rw [hf] at hG
          cases hG
          refine ⟨_, set_get hf _, .inl ?_⟩
          rcases hw with hw | hw
          · exact mono hw
          · rw [mem_writtenBy]
            exact ⟨⟨ow, true, wr ++ pend.getD s.shared⟩,
              List.mem_iff_getElem?.2 ⟨c, by simp [hcl]⟩, ho, List.mem_append_right _ hw⟩
        · exact ⟨G, (List.getElem?_set_ne e).trans hG, hw.imp mono id⟩

theorem TwKept.run {s : Tw} (h : TwKept s) (ops : List TwOp) (hu : FlushesUp s ops) : TwKept (s.run ops) := by
  induction ops generalizing s with
  | nil => exact h
  | cons op ops ih => exact ih (h.step op hu.1) hu.2

/-! ## One factory -/

theorem split_at {α : Type} {l : List α} {c : Nat} {q : α} (h : l[c]? = some q) :
    ∃ a b, l = a ++ q :: b ∧ a.length = c ∧ ∀ x, l.set c x = a ++ x :: b := by
  obtain ⟨hlt, rfl⟩ := List.getElem?_eq_some_iff.1 h
  refine ⟨l.take c, l.drop (c + 1), ?_, by simp; omega, fun x => List.set_eq_take_append_cons_drop .. |>.trans (by simp [hlt])⟩
  rw [List.getElem_cons_drop, List.take_append_drop]

/-- The state of a process with one factory, all of whose flushes happened while the connection was up. -/
structure TwOne (s : Tw) (F : Factory) : Prop where
  one : s.factories = [F]
  owner : ∀ q ∈ s.protos, q.owner = 0
  calls : ∀ e ∈ s.calls, e.1 = 0
  remote : ∀ c, F.remote = some c → c + 1 = s.protos.length
  exact : s.calls.map Prod.snd = (s.protos.flatMap Proto.written) ++ F.pending.getD s.shared

theorem TwOne.step {s : Tw} {F : Factory} (h : TwOne s F) (op : TwOp) (hn : op ≠ .newFactory) (hu : ∀ f, op = .flush f → Up s f) :
    ∃ F', TwOne (s.step op) F' := by
  obtain ⟨h1, h2, h3, h4, h5⟩ := h
  have get : ∀ {f : Nat} {G : Factory}, s.factories[f]? = some G → f = 0 ∧ G = F := by
    intro f G hf
    rw [h1, List.getElem?_singleton] at hf
    split at hf
    · cases hf; exact ⟨by assumption, rfl⟩
    · cases hf
  cases op with
  | newFactory => exact absurd rfl hn
  | collect f p =>
    simp only [Tw.step]
    cases hf : s.factories[f]? with
    | none => exact ⟨F, h1, h2, h3, h4, h5⟩
    | some G =>
      obtain ⟨rfl, rfl⟩ := get hf
      have hc : ∀ e ∈ s.calls ++ [(0, p)], e.1 = 0 := by
        intro e he
        rcases List.mem_append.1 he with he | he
        · exact h3 e he
        · rw [List.mem_singleton] at he; subst he; rfl
      cases hp : G.pending with
      | none =>
        simp only [hp]
        refine ⟨G, h1, h2, hc, h4, ?_⟩
        rw [hp] at h5
        simp only [List.map_append, h5, hp]
        simp
      | some l =>
        simp only [hp]
        refine ⟨{ G with pending := some (l ++ [p]) }, by rw [h1]; rfl, h2, hc, h4, ?_⟩
        rw [hp] at h5
        simp only [List.map_append, h5]
        simp
  | connect f =>
    simp only [Tw.step]
    cases hf : s.factories[f]? with
    | none => exact ⟨F, h1, h2, h3, h4, h5⟩
    | some G =>
      obtain ⟨rfl, rfl⟩ := get hf
      refine ⟨_, by rw [h1]; rfl, ?_, h3, ?_, ?_⟩
      · intro q hq
        rcases List.mem_append.1 hq with hq | hq
        · exact h2 q hq
        · rw [List.mem_singleton] at hq; subst hq; rfl
      · intro c hc
        cases hc
        simp
      · simp [h5]
  | lost c =>
    simp only [Tw.step]
    cases hc : s.protos[c]? with
    | none => exact ⟨F, h1, h2, h3, h4, h5⟩
    | some q =>
      refine ⟨F, h1, ?_, h3, fun c' hc' => by simpa using h4 c' hc', ?_⟩
      · intro q' hq'
        rcases List.mem_or_eq_of_mem_set hq' with hq' | rfl
        · exact h2 q' hq'
        · exact h2 q (List.mem_of_getElem? hc)
      · obtain ⟨a, b, e1, -, e2⟩ := split_at hc
        simp only [e2, h5]
        rw [e1]
        simp
  | flush f =>
    obtain ⟨G, c, q, hf, hr, hc, hup⟩ := hu f rfl
    obtain ⟨rfl, rfl⟩ := get hf
    obtain ⟨pend, rem⟩ := G
    obtain ⟨ow, con, wr⟩ := q
    simp only at hr hup
    subst hr hup
    simp only [Tw.step, hf, hc, if_true]
    split
    · exact ⟨_, h1, h2, h3, h4, h5⟩
    · have hl := h4 c rfl
      refine ⟨⟨some [], some c⟩, by rw [h1]; rfl, ?_, h3, fun c' hc' => by simpa using h4 c' hc', ?_⟩
      · intro q' hq'
        rcases List.mem_or_eq_of_mem_set hq' with hq' | rfl
        · exact h2 q' hq'
        · exact h2 ⟨ow, true, wr⟩ (List.mem_of_getElem? hc)
      · obtain ⟨a, b, e1, e3, e2⟩ := split_at hc
        have hb : b = [] := by
          rw [e1] at hl
          simp only [List.length_append, List.length_cons] at hl
          exact List.eq_nil_of_length_eq_zero (by omega)
        subst hb
        simp only [e2, h5]
        rw [e1]
        simp

theorem TwOne.run {s : Tw} {F : Factory} (h : TwOne s F) (ops : List TwOp) (hn : TwOp.newFactory ∉ ops) (hu : FlushesUp s ops) :
    ∃ F', TwOne (s.run ops) F' := by
  induction ops generalizing s F with
  | nil => exact ⟨F, h⟩
  | cons op ops ih =>
    obtain ⟨F', h'⟩ := h.step op (fun e => hn (by simp [e])) hu.1
    exact ih h' (fun e => hn (List.mem_cons_of_mem _ e)) hu.2

theorem TwOne.collected {s : Tw} {F : Factory} (h : TwOne s F) : collectedBy s 0 = writtenBy s 0 ++ pendingOf s 0 := by
  have e1 : collectedBy s 0 = s.calls.map Prod.snd := by
    unfold collectedBy
    have := h.calls
    generalize s.calls = l at this
    induction l with
    | nil => rfl
    | cons e l ih =>
      rw [List.filterMap_cons, if_pos (this e (List.mem_cons_self ..)), List.map_cons]
      simp only
      rw [ih fun x hx => this x (List.mem_cons_of_mem _ hx)]
  have e2 : writtenBy s 0 = s.protos.flatMap Proto.written := by
    unfold writtenBy
    have := h.owner
    generalize s.protos = l at this
    induction l with
    | nil => rfl
    | cons e l ih =>
      rw [List.flatMap_cons, List.flatMap_cons, if_pos (this e (List.mem_cons_self ..)),
        ih fun x hx => this x (List.mem_cons_of_mem _ hx)]
  have e3 : pendingOf s 0 = F.pending.getD s.shared := by simp [pendingOf, h.one]
  rw [e1, e2, e3, h.exact]

end Appdash.Py
