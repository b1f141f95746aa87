import Verif.Spec.MultiSlices
import Verif.Proofs.Slices

/-!
# Proofs about stores that share slices
-/

namespace Appdash

namespace MemStore

/-- Hanging a span into the tree leaves the span map alone. -/
theorem attach_span {ms ms' : MemStore} {id : SpanID} {s : Nat} (h : ms.attach id s = some ms') :
    ms'.span = ms.span ∧ ms'.next = ms.next := by
  have hre : ∀ {ms ms' : MemStore} {d s : Nat}, ms.reattachChildren d s = some ms' → ms'.span = ms.span ∧ ms'.next = ms.next := by
    intro ms ms' d s h
    unfold reattachChildren at h
    split at h
    · simp at h
    · simp only [Option.some.injEq] at h
      subst h; exact ⟨rfl, rfl⟩
  have hi : ∀ (ms : MemStore) (r t : Nat), (ms.insert r t).span = ms.span ∧ (ms.insert r t).next = ms.next := by
    intro ms r t
    unfold insert
    split <;> exact ⟨rfl, rfl⟩
  have hfix : ∀ {ms ms' : MemStore} {s r r' : Nat}, ms.fixRoot id s r = some (ms', r') → ms'.span = ms.span ∧ ms'.next = ms.next := by
    intro ms ms' s r r' h
    unfold fixRoot at h
    split at h
    · dsimp only at h
      split at h
      · simp at h
      · next h1 =>
        simp only [Option.some.injEq, Prod.mk.injEq] at h
        rw [← h.1]
        have h2 := hre h1
        have h3 := hi ‹MemStore› s r
        exact ⟨h3.1.trans h2.1, h3.2.trans h2.2⟩
    · simp only [Option.some.injEq, Prod.mk.injEq] at h
      rw [h.1]; exact ⟨rfl, rfl⟩
  have key : ∀ {ms0 ms' : MemStore} {r : Nat},
      (match ms0.fixRoot id s r with
      | none => none
      | some (ms, root) =>
        let ms := if id.isRoot = false ∧ s ≠ root then ms.insert root s else ms
        if s ≠ root then ms.reattachChildren s root else some ms) = some ms' → ms'.span = ms0.span ∧ ms'.next = ms0.next := by
    intro ms0 ms' r h
    split at h
    · simp at h
    · next ms1 root h1 =>
      dsimp only at h
      have : (if id.isRoot = false ∧ s ≠ root then ms1.insert root s else ms1).span = ms0.span ∧
          (if id.isRoot = false ∧ s ≠ root then ms1.insert root s else ms1).next = ms0.next := by
        have h2 := hfix h1
        split
        · have h3 := hi ms1 root s
          exact ⟨h3.1.trans h2.1, h3.2.trans h2.2⟩
        · exact h2
      split at h
      · have h4 := hre h
        exact ⟨h4.1.trans this.1, h4.2.trans this.2⟩
      · simp only [Option.some.injEq] at h
        rw [← h]; exact this
  unfold attach at h
  cases ht : ms.trace.get id.trace with
  | some r => rw [ht] at h; exact key (ms0 := ms) h
  | none => rw [ht] at h; exact key (ms0 := { ms with trace := ms.trace.set id.trace s }) h

/-- The spans that a store has after `Collect`. -/
theorem collect_spanGet {ms ms' : MemStore} {id : SpanID} {as : List Annotation} (h : ms.collect id as = some ms') :
    (∃ a, ms.spanGet id.trace id.span = some a ∧ ms'.next = ms.next ∧ ∀ t i, ms'.spanGet t i = ms.spanGet t i) ∨
      (ms.spanGet id.trace id.span = none ∧ ms'.next = ms.next + 1 ∧
        ∀ t i, ms'.spanGet t i = if t = id.trace ∧ i = id.span then some ms.next else ms.spanGet t i) := by
  have hs : ms.spanGet id.trace id.span = AMap.get ((ms.span.get id.trace).getD []) id.span := by
    unfold spanGet
    cases ms.span.get id.trace <;> rfl
  rw [hs]
  unfold collect at h
  dsimp only at h
  cases hg : AMap.get ((ms.span.get id.trace).getD []) id.span with
  | some s =>
    rw [hg] at h
    simp only [Option.some.injEq] at h
    left
    exact ⟨s, rfl, by rw [← h], by rw [← h]; intros; rfl⟩
  | none =>
    rw [hg] at h
    right
    obtain ⟨h1, h2⟩ := attach_span h
    refine ⟨rfl, h2, fun t i => ?_⟩
    unfold spanGet
    rw [h1]
    dsimp only
    by_cases ht : t = id.trace
    · subst ht
      rw [AMap.get_set_self]
      by_cases hi : i = id.span
      · subst hi
        simp [AMap.get_set_self]
      · simp only [hi, and_false, if_false]
        rw [AMap.get_set_ne _ _ (Ne.symm hi)]
        cases ms.span.get id.trace <;> rfl
    · simp only [ht, false_and, if_false]
      rw [AMap.get_set_ne _ _ (Ne.symm ht)]

end MemStore

namespace Slices

/-- What was written to each array, and for which span (none while it belongs to the program). -/
structure Log where
  text : Nat → List Annotation
  owner : Nat → Option (ID × ID)

/-- The elements of a slice are the beginning of what was written to its array. -/
def Holds (m : Arrays) (G : Log) (sl : Slice) (val : List Annotation) : Prop :=
  sl.len = val.length ∧ sl.len ≤ sl.cap ∧
    (0 < sl.cap → ∃ b, m[sl.arr]? = some b ∧ b.length = sl.cap ∧ val <+: G.text sl.arr ∧ G.text sl.arr <+: b)

theorem Holds.read_eq {m : Arrays} {G : Log} {sl : Slice} {val : List Annotation} (h : Holds m G sl val) : sl.read m = val := by
  obtain ⟨h1, h2, h3⟩ := h
  by_cases hc : 0 < sl.cap
  · obtain ⟨b, b1, _, b3, b4⟩ := h3 hc
    obtain ⟨r, hr⟩ := b3.trans b4
    simp [Slice.read, b1, h1, ← hr]
  · have hl : sl.len = 0 := by omega
    have : val = [] := List.length_eq_zero_iff.1 (by omega)
    simp [Slice.read, hl, this]

theorem Holds.mono {m m' : Arrays} {G G' : Log} {sl : Slice} {val : List Annotation} (h : Holds m G sl val)
    (hk : 0 < sl.cap → ∀ b, m[sl.arr]? = some b → G.text sl.arr <+: b →
      ∃ b', m'[sl.arr]? = some b' ∧ b'.length = b.length ∧ G.text sl.arr <+: G'.text sl.arr ∧ G'.text sl.arr <+: b') :
    Holds m' G' sl val := by
  refine ⟨h.1, h.2.1, fun hc => ?_⟩
  obtain ⟨b, b1, b2, b3, b4⟩ := h.2.2 hc
  obtain ⟨b', c1, c2, c3, c4⟩ := hk hc b b1 b4
  exact ⟨b', c1, c2.trans b2, b3.trans c3, c4⟩

/-- The store finds the node for this span. -/
def Sys.isLive (s : Sys) (k : Nat) (κ : ID × ID) (a : Nat) : Prop := (s.stores k).tree.spanGet κ.1 κ.2 = some a

/-- The stores `0, …, n-1` have been given the same slices, but for the last call, for the span `κ0`, which only `0, …, j-1` have been given. -/
structure Lock (n j : Nat) (κ0 : ID × ID) (as : List Annotation) (s : Sys) (gone : Nat → Bool) (c : Spec.Copying) (G : Log) : Prop where
  tree : ∀ k, c.stores k = (s.stores k).tree.withAnns fun a => ((c.stores k).heap a).anns
  idle : ∀ k, n ≤ k → ∀ κ a, ¬ s.isLive k κ a
  inj : ∀ k κ κ' a, s.isLive k κ a → s.isLive k κ' a → κ = κ'
  lt : ∀ k κ a, s.isLive k κ a → a < (s.stores k).tree.next
  node : ∀ k a, Holds s.arrays G ((s.stores k).anns a) ((c.stores k).heap a).anns
  owned : ∀ k a, 0 < ((s.stores k).anns a).cap → G.owner ((s.stores k).anns a).arr ≠ none
  live : ∀ k κ a, s.isLive k κ a → 0 < ((s.stores k).anns a).cap →
    G.owner ((s.stores k).anns a).arr = some κ ∧
      ((((c.stores k).heap a).anns = G.text ((s.stores k).anns a).arr ∧
          (κ = κ0 → j ≤ k → ∀ k' < j, ∀ a', s.isLive k' κ0 a' → 0 < ((s.stores k').anns a').cap →
            ((s.stores k').anns a').arr ≠ ((s.stores k).anns a).arr)) ∨
        (κ = κ0 ∧ j ≤ k ∧ ((c.stores k).heap a).anns ++ as = G.text ((s.stores k).anns a).arr ∧
          ∃ k' < j, ∃ a', s.isLive k' κ0 a' ∧ 0 < ((s.stores k').anns a').cap ∧ ((s.stores k').anns a').arr = ((s.stores k).anns a).arr))
  var : ∀ v, gone v = false → Holds s.arrays G (s.vars v) (c.vars v) ∧
    (0 < (s.vars v).cap → G.owner (s.vars v).arr = none ∧ G.text (s.vars v).arr = c.vars v)
  varInj : ∀ v w, gone v = false → gone w = false → 0 < (s.vars v).cap → 0 < (s.vars w).cap → (s.vars v).arr = (s.vars w).arr → v = w

/-- The slice that is being passed. -/
structure Source (j : Nat) (κ0 : ID × ID) (as : List Annotation) (s : Sys) (gone : Nat → Bool) (G : Log) (sl : Slice) : Prop where
  holds : Holds s.arrays G sl as
  text : 0 < sl.cap → G.text sl.arr = as ∧ (G.owner sl.arr = none ∨ G.owner sl.arr = some κ0)
  nodes : 0 < sl.cap → ∀ k a, 0 < ((s.stores k).anns a).cap → ((s.stores k).anns a).arr = sl.arr → k < j
  vars : 0 < sl.cap → ∀ v, gone v = false → 0 < (s.vars v).cap → (s.vars v).arr ≠ sl.arr

variable {n j : Nat} {κ0 : ID × ID} {as : List Annotation} {s : Sys} {gone : Nat → Bool} {c : Spec.Copying} {G : Log}

/-- One more store has been given the slice. -/
theorem Lock.update (L : Lock n j κ0 as s gone c G) {m' : Arrays} {G' : Log} {tree' : MemStore} {sl' : Slice} {val' : List Annotation} {a0 : Nat}
    (hj : j < n)
    (hlive : ∀ κ a, tree'.spanGet κ.1 κ.2 = some a ↔ (κ = κ0 ∧ a = a0) ∨ (κ ≠ κ0 ∧ s.isLive j κ a))
    (ha0 : ∀ κ, κ ≠ κ0 → ¬ s.isLive j κ a0) (hlt : a0 < tree'.next) (hnext : (s.stores j).tree.next ≤ tree'.next)
    (hnew : Holds m' G' sl' val')
    (hnew' : 0 < sl'.cap → G'.owner sl'.arr = some κ0 ∧ val' = G'.text sl'.arr)
    (hmono : ∀ (i : Nat) (b : List Annotation), m[i]? = some b → G.text i <+: b →
      ∃ b', m'[i]? = some b' ∧ b'.length = b.length ∧ G.text i <+: G'.text i ∧ G'.text i <+: b')
    (hm : m = s.arrays)
    (howner : ∀ i, G.owner i ≠ none → G'.owner i ≠ none)
    (hvar : ∀ v, gone v = false → 0 < (s.vars v).cap → G'.owner (s.vars v).arr = none ∧ G'.text (s.vars v).arr = G.text (s.vars v).arr)
    (hother : ∀ k κ a, s.isLive k κ a → (k ≠ j ∨ κ ≠ κ0) → 0 < ((s.stores k).anns a).cap →
      G'.owner ((s.stores k).anns a).arr = some κ ∧
      ((((c.stores k).heap a).anns = G'.text ((s.stores k).anns a).arr ∧
          (κ = κ0 → j + 1 ≤ k → (∀ k' < j, ∀ a', s.isLive k' κ0 a' → 0 < ((s.stores k').anns a').cap →
            ((s.stores k').anns a').arr ≠ ((s.stores k).anns a).arr) ∧ (0 < sl'.cap → sl'.arr ≠ ((s.stores k).anns a).arr))) ∨
        (κ = κ0 ∧ j + 1 ≤ k ∧ ((c.stores k).heap a).anns ++ as = G'.text ((s.stores k).anns a).arr ∧
          ((∃ k' < j, ∃ a', s.isLive k' κ0 a' ∧ 0 < ((s.stores k').anns a').cap ∧ ((s.stores k').anns a').arr = ((s.stores k).anns a).arr) ∨
            (0 < sl'.cap ∧ sl'.arr = ((s.stores k).anns a).arr))))) :
    Lock n (j + 1) κ0 as { s with arrays := m', stores := upd s.stores j ⟨tree', fun x => if x = a0 then sl' else (s.stores j).anns x⟩ } gone
      { c with stores := upd c.stores j (tree'.withAnns (upd (fun a => ((c.stores j).heap a).anns) a0 val')) } G' := by
  subst hm
  have slive : ∀ k κ a, Sys.isLive { s with arrays := m', stores := upd s.stores j ⟨tree', fun x => if x = a0 then sl' else (s.stores j).anns x⟩ } k κ a ↔
      (k = j ∧ κ = κ0 ∧ a = a0) ∨ ((k ≠ j ∨ κ ≠ κ0) ∧ s.isLive k κ a) := by
    intro k κ a
    by_cases hk : k = j
    · subst hk
      simp only [Sys.isLive, upd_self]
      rw [hlive κ a]
      simp [Sys.isLive]
    · simp only [Sys.isLive, upd_ne _ _ hk]
      simp [hk]
  have sanns : ∀ k a, (({ s with arrays := m', stores := upd s.stores j ⟨tree', fun x => if x = a0 then sl' else (s.stores j).anns x⟩ } : Sys).stores k).anns a =
      if k = j ∧ a = a0 then sl' else (s.stores k).anns a := by
    intro k a
    by_cases hk : k = j
    · subst hk; simp [upd_self]
    · simp [upd_ne _ _ hk, hk]
  have cval : ∀ k a, ((({ c with stores := upd c.stores j (tree'.withAnns (upd (fun a => ((c.stores j).heap a).anns) a0 val')) } : Spec.Copying).stores k).heap a).anns =
      if k = j ∧ a = a0 then val' else ((c.stores k).heap a).anns := by
    intro k a
    by_cases hk : k = j
    · subst hk; simp [upd_self, MemStore.withAnns, upd_apply]
    · simp [upd_ne _ _ hk, hk]
  have hne : ∀ k κ a, s.isLive k κ a → (k ≠ j ∨ κ ≠ κ0) → ¬ (k = j ∧ a = a0) := by
    rintro k κ a h1 h2 ⟨rfl, rfl⟩
    exact ha0 κ (h2.resolve_left (by simp)) h1
  have keep : ∀ sl val, Holds s.arrays G sl val → Holds m' G' sl val := fun sl val h => h.mono fun _ b h1 h2 => hmono _ b h1 h2
  constructor
  case tree =>
    intro k
    by_cases hk : k = j
    · subst hk
      simp only [upd_self]
      rfl
    · simp only [upd_ne _ _ hk]; exact L.tree k
  case idle =>
    intro k hk κ a h
    rw [slive] at h
    rcases h with ⟨rfl, _⟩ | ⟨_, h⟩
    · omega
    · exact L.idle k hk κ a h
  case inj =>
    intro k κ κ' a h h'
    rw [slive] at h h'
    rcases h with ⟨rfl, rfl, rfl⟩ | ⟨h1, h2⟩
    · rcases h' with ⟨_, rfl, _⟩ | ⟨h1, h2⟩
      · rfl
      · exact (hne _ _ _ h2 h1 ⟨rfl, rfl⟩).elim
    · rcases h' with ⟨rfl, rfl, rfl⟩ | ⟨_, h3⟩
      · exact (hne _ _ _ h2 h1 ⟨rfl, rfl⟩).elim
      · exact L.inj k κ κ' a h2 h3
  case lt =>
    intro k κ a h
    rw [slive] at h
    by_cases hk : k = j
    · subst hk
      simp only [upd_self]
      rcases h with ⟨_, _, rfl⟩ | ⟨_, h2⟩
      · exact hlt
      · exact Nat.lt_of_lt_of_le (L.lt _ _ _ h2) hnext
    · simp only [upd_ne _ _ hk]
      rcases h with ⟨h1, _, _⟩ | ⟨_, h2⟩
      · exact absurd h1 hk
      · exact L.lt _ _ _ h2
  case node =>
    intro k a
    rw [sanns, cval]
    split
    · exact hnew
    · exact keep _ _ (L.node k a)
  case owned =>
    intro k a h
    rw [sanns] at h ⊢
    split at h
    · next e => rw [if_pos e]; rw [(hnew' h).1]; simp
    · next e => rw [if_neg e]; exact howner _ (L.owned k a h)
  case live =>
    intro k κ a h hc
    rw [slive] at h
    rcases h with ⟨rfl, rfl, rfl⟩ | ⟨h1, h2⟩
    · rw [sanns] at hc ⊢
      rw [cval]
      simp only [and_self, if_true] at hc ⊢
      exact ⟨(hnew' hc).1, .inl ⟨(hnew' hc).2, fun _ h => by omega⟩⟩
    · have hn := hne k κ a h2 h1
      rw [sanns, if_neg hn] at hc ⊢
      rw [cval, if_neg hn]
      obtain ⟨o, h3⟩ := hother k κ a h2 h1 hc
      refine ⟨o, ?_⟩
      rcases h3 with ⟨e1, e2⟩ | ⟨e1, e2, e3, e4⟩
      · left
        refine ⟨e1, fun hκ hle k' hk' a' hl' hc' => ?_⟩
        obtain ⟨f1, f2⟩ := e2 hκ hle
        rw [slive] at hl'
        rcases hl' with ⟨rfl, _, rfl⟩ | ⟨g1, g2⟩
        · rw [sanns] at hc' ⊢
          simp only [and_self, if_true] at hc' ⊢
          exact f2 hc'
        · have hn' := hne k' κ0 a' g2 g1
          rw [sanns, if_neg hn'] at hc' ⊢
          have : k' ≠ j := g1.resolve_right (by simp)
          exact f1 k' (by omega) a' g2 hc'
      · right
        refine ⟨e1, e2, e3, ?_⟩
        rcases e4 with ⟨k', hk', a', g1, g2, g3⟩ | ⟨g1, g2⟩
        · have hn' : ¬ (k' = j ∧ a' = a0) := fun h => by omega
          refine ⟨k', by omega, a', (slive k' κ0 a').2 (.inr ⟨.inl (by omega), g1⟩), ?_, ?_⟩
          · rw [sanns, if_neg hn']; exact g2
          · rw [sanns, if_neg hn']; exact g3
        · refine ⟨j, by omega, a0, (slive j κ0 a0).2 (.inl ⟨rfl, rfl, rfl⟩), ?_, ?_⟩
          · rw [sanns, if_pos ⟨rfl, rfl⟩]; exact g1
          · rw [sanns, if_pos ⟨rfl, rfl⟩]; exact g2
  case var =>
    intro v hv
    obtain ⟨h1, h2⟩ := L.var v hv
    refine ⟨keep _ _ h1, fun hc => ?_⟩
    obtain ⟨h3, h4⟩ := hvar v hv hc
    exact ⟨h3, h4.trans (h2 hc).2⟩
  case varInj => exact L.varInj

/-- The slice can be passed to one more store. -/
theorem Source.update {sl : Slice} (Q : Source j κ0 as s gone G sl) {m' : Arrays} {G' : Log} {tree' : MemStore} {sl' : Slice} {a0 : Nat}
    (hmono : ∀ (i : Nat) (b : List Annotation), s.arrays[i]? = some b → G.text i <+: b →
      ∃ b', m'[i]? = some b' ∧ b'.length = b.length ∧ G.text i <+: G'.text i ∧ G'.text i <+: b')
    (htext : 0 < sl.cap → G'.text sl.arr = G.text sl.arr ∧ (G'.owner sl.arr = none ∨ G'.owner sl.arr = some κ0)) :
    Source (j + 1) κ0 as { s with arrays := m', stores := upd s.stores j ⟨tree', fun x => if x = a0 then sl' else (s.stores j).anns x⟩ } gone G' sl where
  holds := Q.holds.mono fun _ b h1 h2 => hmono _ b h1 h2
  text hc := ⟨(htext hc).1.trans (Q.text hc).1, (htext hc).2⟩
  nodes hc k a h1 h2 := by
    by_cases hk : k = j
    · omega
    · simp only [upd_ne _ _ hk] at h1 h2
      have := Q.nodes hc k a h1 h2
      omega
  vars := Q.vars

theorem getElem?_set_cases {α : Type} {l : List α} {i k : Nat} {x b : α} (h : l[k]? = some b) :
    (l.set i x)[k]? = some (if k = i then x else b) := by
  by_cases e : k = i
  · subst e
    rw [if_pos rfl, List.getElem?_set_self (List.getElem?_eq_some_iff.1 h).1]
  · rw [if_neg e, List.getElem?_set_ne (Ne.symm e), h]

/-- `Collect` on the next store. -/
theorem Lock.collect (L : Lock n j κ0 as s gone c G) {id : SpanID} (hid : κ0 = (id.trace, id.span)) (hj : j < n) {sl : Slice}
    (Q : Source j κ0 as s gone G sl) (spare : Nat) :
    ((s.stores j).collect s.arrays id sl spare = none ∧ (c.stores j).collect id as = none) ∨
    ∃ r ms G', (s.stores j).collect s.arrays id sl spare = some r ∧ (c.stores j).collect id as = some ms ∧
      Lock n (j + 1) κ0 as { s with arrays := r.1, stores := upd s.stores j r.2 } gone { c with stores := upd c.stores j ms } G' ∧
      Source (j + 1) κ0 as { s with arrays := r.1, stores := upd s.stores j r.2 } gone G' sl := by
  have hc := MemStore.collect_withAnns (s.stores j).tree (fun a => ((c.stores j).heap a).anns) id as
  rw [← L.tree j] at hc
  unfold Store.collect
  cases ht : (s.stores j).tree.collect id [] with
  | none => rw [ht] at hc; exact .inl ⟨rfl, hc⟩
  | some tree =>
    right
    rw [ht] at hc
    rcases MemStore.collect_spanGet ht with ⟨a0, hg, hn, hs⟩ | ⟨hg, hn, hs⟩
    · -- the span is known
      rw [hg] at hc
      simp only [Option.map_some] at hc
      rw [hg]
      dsimp only
      rw [Q.holds.read_eq]
      have hl0 : s.isLive j κ0 a0 := by rw [hid]; exact hg
      have hlive : ∀ κ a, tree.spanGet κ.1 κ.2 = some a ↔ (κ = κ0 ∧ a = a0) ∨ (κ ≠ κ0 ∧ s.isLive j κ a) := by
        intro κ a
        rw [hs]
        by_cases hκ : κ = κ0
        · subst hκ
          have : (s.stores j).tree.spanGet κ.1 κ.2 = some a0 := hl0
          rw [this]
          simp [eq_comm]
        · simp [hκ, Sys.isLive]
      have ha0 : ∀ κ, κ ≠ κ0 → ¬ s.isLive j κ a0 := fun κ hκ h => hκ (L.inj j κ κ0 a0 h hl0)
      have hlt : a0 < tree.next := by rw [hn]; exact L.lt j κ0 a0 hl0
      have N := L.node j a0
      by_cases hfit : ((s.stores j).anns a0).len + as.length ≤ ((s.stores j).anns a0).cap
      · by_cases hcap : 0 < ((s.stores j).anns a0).cap
        · -- in place
          obtain ⟨o, hcase⟩ := L.live j κ0 a0 hl0 hcap
          obtain ⟨b, b1, b2, b3, b4⟩ := N.2.2 hcap
          have happ : ((s.stores j).anns a0).append s.arrays as spare =
              (s.arrays.set ((s.stores j).anns a0).arr (b.take ((s.stores j).anns a0).len ++ as ++ b.drop (((s.stores j).anns a0).len + as.length)),
                { (s.stores j).anns a0 with len := ((s.stores j).anns a0).len + as.length }) := by
            simp [Slice.append, hfit, b1]
          rw [happ]
          have hlen := N.1
          have htake : b.take ((s.stores j).anns a0).len = ((c.stores j).heap a0).anns := by
            obtain ⟨r, hr⟩ := b3.trans b4
            rw [← hr, hlen, List.take_left']
            rfl
          have hblen : (b.take ((s.stores j).anns a0).len ++ as ++ b.drop (((s.stores j).anns a0).len + as.length)).length = b.length := by
            simp; omega
          have key : ∃ G' : Log, G'.owner = G.owner ∧ G'.text ((s.stores j).anns a0).arr = ((c.stores j).heap a0).anns ++ as ∧
              (∀ i, i ≠ ((s.stores j).anns a0).arr → G'.text i = G.text i) ∧
              G.text ((s.stores j).anns a0).arr <+: G'.text ((s.stores j).anns a0).arr ∧
              ((G' = G ∧ ∃ k' < j, ∃ a', s.isLive k' κ0 a' ∧ 0 < ((s.stores k').anns a').cap ∧
                  ((s.stores k').anns a').arr = ((s.stores j).anns a0).arr) ∨
                (G.text ((s.stores j).anns a0).arr = ((c.stores j).heap a0).anns ∧ ∀ k' < j, ∀ a', s.isLive k' κ0 a' →
                  0 < ((s.stores k').anns a').cap → ((s.stores k').anns a').arr ≠ ((s.stores j).anns a0).arr)) := by
            rcases hcase with ⟨h1, h2⟩ | ⟨_, _, h3, h4⟩
            · refine ⟨⟨upd G.text ((s.stores j).anns a0).arr (((c.stores j).heap a0).anns ++ as), G.owner⟩, rfl, upd_self .., fun i hi => upd_ne _ _ hi, ?_, .inr ⟨h1.symm, h2 rfl (Nat.le_refl _)⟩⟩
              rw [← h1]
              show _ <+: upd G.text _ _ _
              rw [upd_self]
              exact List.prefix_append _ _
            · exact ⟨G, rfl, h3.symm, fun _ _ => rfl, List.prefix_rfl, .inl ⟨rfl, h4⟩⟩
          obtain ⟨G', g1, g2, g3, g4, g5⟩ := key
          have hmono : ∀ (i : Nat) (b0 : List Annotation), s.arrays[i]? = some b0 → G.text i <+: b0 →
              ∃ b', (s.arrays.set ((s.stores j).anns a0).arr (b.take ((s.stores j).anns a0).len ++ as ++ b.drop (((s.stores j).anns a0).len + as.length)))[i]? = some b' ∧
                b'.length = b0.length ∧ G.text i <+: G'.text i ∧ G'.text i <+: b' := by
            intro i b0 h1 h2
            refine ⟨_, getElem?_set_cases h1, ?_⟩
            by_cases hi : i = ((s.stores j).anns a0).arr
            · rw [if_pos hi]
              subst hi
              rw [b1] at h1
              cases h1
              refine ⟨hblen, g4, ?_⟩
              rw [g2, htake]
              exact List.prefix_append _ _
            · rw [if_neg hi]
              exact ⟨rfl, by rw [g3 i hi]; exact List.prefix_rfl, by rw [g3 i hi]; exact h2⟩
          have hset : (s.arrays.set ((s.stores j).anns a0).arr (b.take ((s.stores j).anns a0).len ++ as ++ b.drop (((s.stores j).anns a0).len + as.length)))[((s.stores j).anns a0).arr]? =
              some (b.take ((s.stores j).anns a0).len ++ as ++ b.drop (((s.stores j).anns a0).len + as.length)) := by
            rw [getElem?_set_cases b1, if_pos rfl]
          refine ⟨_, _, G', rfl, hc, L.update (G' := G') hj hlive ha0 hlt (by omega) ?_ ?_ hmono rfl ?_ ?_ ?_, Q.update hmono ?_⟩
          · refine ⟨by simp [hlen], by simpa using hfit, fun _ => ⟨_, hset, by rw [hblen, b2], ?_, ?_⟩⟩
            · rw [g2]; exact List.prefix_rfl
            · rw [g2, htake]; exact List.prefix_append _ _
          · intro _
            rw [g1]
            exact ⟨o, g2.symm⟩
          · intro i hi; rw [g1]; exact hi
          · intro v hv hcv
            obtain ⟨_, h2⟩ := L.var v hv
            obtain ⟨h3, _⟩ := h2 hcv
            rw [g1]
            refine ⟨h3, g3 _ ?_⟩
            intro e
            rw [e, o] at h3
            cases h3
          · intro k κ a hl hor hck
            obtain ⟨ok, hk⟩ := L.live k κ a hl hck
            rw [g1]
            refine ⟨ok, ?_⟩
            dsimp only
            by_cases hi : ((s.stores k).anns a).arr = ((s.stores j).anns a0).arr
            · have hκ : κ = κ0 := by
                rw [hi, o] at ok
                exact (Option.some.inj ok).symm
              subst hκ
              have hkj : k ≠ j := hor.resolve_right (by simp)
              rcases g5 with ⟨rfl, k', hk', a', e1, e2, e3⟩ | ⟨e1, e2⟩
              · rcases hk with ⟨f1, f2⟩ | ⟨_, f2, f3, f4⟩
                · left
                  refine ⟨f1, fun _ hle => ?_⟩
                  exact absurd (e3.trans hi.symm) (f2 rfl (by omega) k' hk' a' e1 e2)
                · exact .inr ⟨rfl, by omega, f3, .inl f4⟩
              · have hkj' : ¬ k < j := fun h => e2 k h a hl hck hi
                rcases hk with ⟨f1, f2⟩ | ⟨_, f2, f3, k', hk', a', e3, e4, e5⟩
                · right
                  refine ⟨rfl, by omega, ?_, .inr ⟨hcap, hi.symm⟩⟩
                  rw [hi, g2, f1, hi, e1]
                · exact absurd (e5.trans hi) (e2 k' hk' a' e3 e4)
            · rw [g3 _ hi]
              rcases hk with ⟨f1, f2⟩ | ⟨f1, f2, f3, f4⟩
              · exact .inl ⟨f1, fun h1 h2 => ⟨f2 h1 (by omega), fun _ => Ne.symm hi⟩⟩
              · have : k ≠ j := hor.resolve_right (by simp [f1])
                exact .inr ⟨f1, by omega, f3, .inl f4⟩
          · intro hcs
            rw [g1]
            obtain ⟨h1, h2⟩ := Q.text hcs
            refine ⟨g3 _ ?_, h2⟩
            intro e
            have := Q.nodes hcs j a0 hcap e.symm
            omega
        · -- nothing to append to nothing
          have hl : ((s.stores j).anns a0).len = 0 := by have := N.2.1; omega
          have has : as = [] := List.length_eq_zero_iff.1 (by omega)
          subst has
          have happ : ((s.stores j).anns a0).append s.arrays [] spare = (s.arrays, (s.stores j).anns a0) := by
            have e1 : s.arrays.set ((s.stores j).anns a0).arr (s.arrays[((s.stores j).anns a0).arr]?.getD []) = s.arrays := by
              by_cases h : ((s.stores j).anns a0).arr < s.arrays.length
              · simp [h]
              · exact List.set_eq_of_length_le (Nat.le_of_not_lt h)
            have e2 : ({ (s.stores j).anns a0 with len := 0 } : Slice) = (s.stores j).anns a0 := by rw [← hl]
            unfold Slice.append
            rw [if_pos hfit]
            simp only [hl, List.take_zero, List.nil_append, List.length_nil, Nat.add_zero, List.drop_zero]
            rw [e1, e2]
          rw [happ]
          have hmono : ∀ (i : Nat) (b0 : List Annotation), s.arrays[i]? = some b0 → G.text i <+: b0 →
              ∃ b', s.arrays[i]? = some b' ∧ b'.length = b0.length ∧ G.text i <+: G.text i ∧ G.text i <+: b' :=
            fun i b0 h1 h2 => ⟨b0, h1, rfl, List.prefix_rfl, h2⟩
          refine ⟨_, _, G, rfl, hc, L.update (G' := G) hj hlive ha0 hlt (by omega) ?_ ?_ hmono rfl ?_ ?_ ?_, Q.update hmono ?_⟩
          · simpa using N
          · intro h; exact absurd h hcap
          · intro i h; exact h
          · intro v hv hcv; exact ⟨((L.var v hv).2 hcv).1, rfl⟩
          · intro k κ a hl hor hck
            obtain ⟨ok, hk⟩ := L.live k κ a hl hck
            refine ⟨ok, ?_⟩
            rcases hk with ⟨f1, f2⟩ | ⟨f1, f2, f3, f4⟩
            · exact .inl ⟨f1, fun h1 h2 => ⟨f2 h1 (by omega), fun h => absurd h hcap⟩⟩
            · have : k ≠ j := hor.resolve_right (by simp [f1])
              exact .inr ⟨f1, by omega, f3, .inl f4⟩
          · intro hcs; exact ⟨rfl, (Q.text hcs).2⟩
      · -- a new array
        have happ : ((s.stores j).anns a0).append s.arrays as spare =
            allocate s.arrays (((c.stores j).heap a0).anns ++ as) spare := by
          simp [Slice.append, hfit, N.read_eq]
        rw [happ]
        have hold : ∀ {i : Nat} {b0 : List Annotation}, s.arrays[i]? = some b0 → i ≠ s.arrays.length := by
          intro i b0 h e
          have := (List.getElem?_eq_some_iff.1 h).1
          omega
        let G' : Log := ⟨upd G.text s.arrays.length (((c.stores j).heap a0).anns ++ as), upd G.owner s.arrays.length (some κ0)⟩
        have hnode : ∀ k a, 0 < ((s.stores k).anns a).cap → ((s.stores k).anns a).arr ≠ s.arrays.length := by
          intro k a h
          obtain ⟨b, b1, _⟩ := (L.node k a).2.2 h
          exact hold b1
        have hmono : ∀ (i : Nat) (b0 : List Annotation), s.arrays[i]? = some b0 → G.text i <+: b0 →
            ∃ b', (allocate s.arrays (((c.stores j).heap a0).anns ++ as) spare).1[i]? = some b' ∧ b'.length = b0.length ∧
              G.text i <+: G'.text i ∧ G'.text i <+: b' := by
          intro i b0 h1 h2
          have hlt := (List.getElem?_eq_some_iff.1 h1).1
          refine ⟨b0, ?_, rfl, ?_, ?_⟩
          · rw [show (allocate s.arrays (((c.stores j).heap a0).anns ++ as) spare).1 =
                s.arrays ++ [(((c.stores j).heap a0).anns ++ as) ++ List.replicate spare default] from rfl, List.getElem?_append_left hlt, h1]
          · rw [show G'.text i = G.text i from upd_ne _ _ (hold h1)]; exact List.prefix_rfl
          · rw [show G'.text i = G.text i from upd_ne _ _ (hold h1)]; exact h2
        refine ⟨_, _, G', rfl, hc, L.update (G' := G') hj hlive ha0 hlt (by omega) ?_ ?_ hmono rfl ?_ ?_ ?_, Q.update hmono ?_⟩
        · refine ⟨rfl, Nat.le_add_right .., fun _ => ⟨(((c.stores j).heap a0).anns ++ as) ++ List.replicate spare default, by simp [allocate], by simp [allocate]; omega, ?_, ?_⟩⟩
          · show _ <+: upd G.text s.arrays.length _ s.arrays.length
            rw [upd_self]; exact List.prefix_rfl
          · show upd G.text s.arrays.length _ s.arrays.length <+: _
            rw [upd_self]; exact List.prefix_append _ _
        · intro _
          exact ⟨upd_self .., (upd_self ..).symm⟩
        · intro i hi
          by_cases e : i = s.arrays.length
          · rw [show G'.owner i = some κ0 by rw [e]; exact upd_self ..]; simp
          · rw [show G'.owner i = G.owner i from upd_ne _ _ e]; exact hi
        · intro v hv hcv
          obtain ⟨h1, h2⟩ := L.var v hv
          obtain ⟨b, b1, _⟩ := h1.2.2 hcv
          exact ⟨(upd_ne _ _ (hold b1)).trans (h2 hcv).1, upd_ne _ _ (hold b1)⟩
        · intro k κ a hl hor hck
          obtain ⟨ok, hk⟩ := L.live k κ a hl hck
          rw [show G'.owner ((s.stores k).anns a).arr = G.owner ((s.stores k).anns a).arr from upd_ne _ _ (hnode k a hck),
            show G'.text ((s.stores k).anns a).arr = G.text ((s.stores k).anns a).arr from upd_ne _ _ (hnode k a hck)]
          refine ⟨ok, ?_⟩
          rcases hk with ⟨f1, f2⟩ | ⟨f1, f2, f3, f4⟩
          · exact .inl ⟨f1, fun h1 h2 => ⟨f2 h1 (by omega), fun _ => Ne.symm (hnode k a hck)⟩⟩
          · have : k ≠ j := hor.resolve_right (by simp [f1])
            exact .inr ⟨f1, by omega, f3, .inl f4⟩
        · intro hcs
          obtain ⟨b, b1, _⟩ := Q.holds.2.2 hcs
          obtain ⟨h1, h2⟩ := Q.text hcs
          rw [show G'.owner sl.arr = G.owner sl.arr from upd_ne _ _ (hold b1)]
          exact ⟨upd_ne _ _ (hold b1), h2⟩
    · -- the span is new
      rw [hg] at hc
      simp only [Option.map_some] at hc
      rw [hg]
      dsimp only
      have hlive : ∀ κ a, tree.spanGet κ.1 κ.2 = some a ↔ (κ = κ0 ∧ a = (s.stores j).tree.next) ∨ (κ ≠ κ0 ∧ s.isLive j κ a) := by
        intro κ a
        rw [hs]
        by_cases hκ : κ = κ0
        · subst hκ
          rw [hid]
          simp [eq_comm]
        · have : ¬ (κ.1 = id.trace ∧ κ.2 = id.span) := by
            rintro ⟨h1, h2⟩
            exact hκ (by rw [hid, ← h1, ← h2])
          simp [hκ, this, Sys.isLive]
      have ha0 : ∀ κ, κ ≠ κ0 → ¬ s.isLive j κ (s.stores j).tree.next := fun κ _ h => Nat.lt_irrefl _ (L.lt j κ _ h)
      let G' : Log := ⟨G.text, if 0 < sl.cap then upd G.owner sl.arr (some κ0) else G.owner⟩
      have hmono : ∀ (i : Nat) (b0 : List Annotation), s.arrays[i]? = some b0 → G.text i <+: b0 →
          ∃ b', s.arrays[i]? = some b' ∧ b'.length = b0.length ∧ G.text i <+: G'.text i ∧ G'.text i <+: b' :=
        fun i b0 h1 h2 => ⟨b0, h1, rfl, List.prefix_rfl, h2⟩
      have hown : ∀ i, G'.owner i = if 0 < sl.cap ∧ i = sl.arr then some κ0 else G.owner i := by
        intro i
        show (if 0 < sl.cap then upd G.owner sl.arr (some κ0) else G.owner) i = _
        by_cases h : 0 < sl.cap <;> simp [h, upd_apply]
      refine ⟨_, _, G', rfl, hc, L.update (G' := G') hj hlive ha0 (by omega) (by omega) ?_ ?_ hmono rfl ?_ ?_ ?_, Q.update hmono ?_⟩
      · exact Q.holds.mono fun _ b h1 h2 => hmono _ b h1 h2
      · intro hcs
        rw [hown, if_pos ⟨hcs, rfl⟩]
        exact ⟨rfl, (Q.text hcs).1.symm⟩
      · intro i hi
        rw [hown]
        split
        · simp
        · exact hi
      · intro v hv hcv
        rw [hown, if_neg]
        · exact ⟨((L.var v hv).2 hcv).1, rfl⟩
        · rintro ⟨h1, h2⟩
          exact Q.vars h1 v hv hcv h2
      · intro k κ a hl hor hck
        obtain ⟨ok, hk⟩ := L.live k κ a hl hck
        refine ⟨?_, ?_⟩
        · rw [hown]
          split
          · next h =>
            rw [h.2] at ok
            rcases (Q.text h.1).2 with e | e
            · rw [e] at ok; cases ok
            · rw [e] at ok; exact ok
          · exact ok
        · rcases hk with ⟨f1, f2⟩ | ⟨f1, f2, f3, f4⟩
          · refine .inl ⟨f1, fun h1 h2 => ⟨f2 h1 (by omega), fun h e => ?_⟩⟩
            have := Q.nodes h k a hck e.symm
            omega
          · have : k ≠ j := hor.resolve_right (by simp [f1])
            exact .inr ⟨f1, by omega, f3, .inl f4⟩
      · intro hcs
        rw [hown, if_pos ⟨hcs, rfl⟩]
        exact ⟨rfl, .inr rfl⟩

/-- The call is over. -/
theorem Lock.finish (L : Lock n n κ0 as s gone c G) (κ1 : ID × ID) (bs : List Annotation) : Lock n 0 κ1 bs s gone c G :=
  { L with
    live := fun k κ a h hc => by
      obtain ⟨h1, h2⟩ := L.live k κ a h hc
      refine ⟨h1, .inl ⟨?_, fun _ _ k' hk' => absurd hk' (Nat.not_lt_zero _)⟩⟩
      rcases h2 with h2 | ⟨_, h2, _⟩
      · exact h2.1
      · exact absurd h (L.idle k h2 κ a) }

/-- A call can begin. -/
theorem Lock.begin (L : Lock n 0 κ0 as s gone c G) (κ1 : ID × ID) (bs : List Annotation) : Lock n 0 κ1 bs s gone c G :=
  { L with
    live := fun k κ a h hc => by
      obtain ⟨h1, h2⟩ := L.live k κ a h hc
      refine ⟨h1, .inl ⟨?_, fun _ _ k' hk' => absurd hk' (Nat.not_lt_zero _)⟩⟩
      rcases h2 with h2 | ⟨_, _, _, k', hk', _⟩
      · exact h2.1
      · exact absurd hk' (Nat.not_lt_zero _) }

/-- The slice of a variable is given away. -/
theorem Lock.give (L : Lock n 0 κ0 as s gone c G) {v : Nat} (hv : gone v = false) (κ1 : ID × ID) :
    Lock n 0 κ1 (c.vars v) s (upd gone v true) c G ∧ Source 0 κ1 (c.vars v) s (upd gone v true) G (s.vars v) := by
  have hg : ∀ w, upd gone v true w = false → w ≠ v ∧ gone w = false := by
    intro w hw
    by_cases e : w = v
    · subst e; rw [upd_self] at hw; cases hw
    · rw [upd_ne _ _ e] at hw; exact ⟨e, hw⟩
  obtain ⟨V1, V2⟩ := L.var v hv
  constructor
  · exact { L.begin κ1 (c.vars v) with
      var := fun w hw => L.var w (hg w hw).2
      varInj := fun w w' hw hw' => L.varInj w w' (hg w hw).2 (hg w' hw').2 }
  · refine ⟨V1, fun hc => ⟨(V2 hc).2, .inl (V2 hc).1⟩, fun hc k a h1 h2 => ?_, fun hc w hw h1 h2 => ?_⟩
    · have := L.owned k a h1
      rw [h2, (V2 hc).1] at this
      exact absurd rfl this
    · exact (hg w hw).1 (L.varInj w v (hg w hw).2 hv h1 hc h2)

/-- The rest of a call. -/
theorem Lock.rest {id : SpanID} {v : Nat} {spares : Nat → Nat} (hid : κ0 = (id.trace, id.span)) :
    ∀ (d j : Nat) {s : Sys} {c : Spec.Copying} {G : Log}, j + d = n → Lock n j κ0 (c.vars v) s gone c G → Source j κ0 (c.vars v) s gone G (s.vars v) →
      (s.run ((List.range' j d).map fun k => .collect k id v (spares k)) = none ∧ c.run ((List.range' j d).map fun k => .collect k id v (spares k)) = none) ∨
      ∃ s' c' G', s.run ((List.range' j d).map fun k => .collect k id v (spares k)) = some s' ∧
        c.run ((List.range' j d).map fun k => .collect k id v (spares k)) = some c' ∧ Lock n n κ0 (c.vars v) s' gone c' G'
  | 0, j, s, c, G, e, L, _ => by
    right
    have : j = n := by omega
    subst this
    exact ⟨s, c, G, rfl, rfl, L⟩
  | d + 1, j, s, c, G, e, L, Q => by
    rw [List.range'_succ]
    simp only [List.map_cons, Sys.run, Spec.Copying.run, Sys.step, Spec.Copying.step]
    rcases L.collect hid (by omega) Q (spares j) with ⟨h1, h2⟩ | ⟨r, ms, G', h1, h2, L', Q'⟩
    · left; simp [h1, h2]
    · rw [h1, h2]
      exact Lock.rest hid d (j + 1) (c := { c with stores := upd c.stores j ms }) (by omega) L' Q'

/-- The program changes a slice of its own. -/
theorem Lock.setVar (L : Lock n 0 κ0 as s gone c G) {v i : Nat} {m' : Arrays} {G' : Log} {sl' : Slice} {val' : List Annotation}
    (hnew : Holds m' G' sl' val') (hnew' : 0 < sl'.cap → sl'.arr = i ∧ G'.owner sl'.arr = none ∧ G'.text sl'.arr = val')
    (hm : ∀ (i' : Nat) (b : List Annotation), i' ≠ i → s.arrays[i']? = some b → m'[i']? = some b)
    (hG : ∀ i', i' ≠ i → G'.text i' = G.text i' ∧ G'.owner i' = G.owner i')
    (hnodes : ∀ k a, 0 < ((s.stores k).anns a).cap → ((s.stores k).anns a).arr ≠ i)
    (hvars : ∀ w, w ≠ v → gone w = false → 0 < (s.vars w).cap → (s.vars w).arr ≠ i) :
    Lock n 0 κ0 as { s with arrays := m', vars := upd s.vars v sl' } (upd gone v false) { c with vars := upd c.vars v val' } G' := by
  have keep : ∀ {sl val}, (0 < sl.cap → sl.arr ≠ i) → Holds s.arrays G sl val → Holds m' G' sl val := by
    intro sl val h1 h2
    apply h2.mono
    intro hc b h3 h4
    refine ⟨b, hm _ b (h1 hc) h3, rfl, ?_, ?_⟩ <;> rw [(hG _ (h1 hc)).1]
    · exact List.prefix_rfl
    · exact h4
  have hw : ∀ w, w ≠ v → upd gone v false w = false → gone w = false := fun w e h => by rwa [upd_ne _ _ e] at h
  constructor
  case tree => exact L.tree
  case idle => exact L.idle
  case inj => exact L.inj
  case lt => exact L.lt
  case node => exact fun k a => keep (hnodes k a) (L.node k a)
  case owned =>
    intro k a hc
    have := L.owned k a hc
    rwa [← (hG _ (hnodes k a hc)).2] at this
  case live =>
    intro k κ a hl hc
    have := L.live k κ a hl hc
    rwa [← (hG _ (hnodes k a hc)).2, ← (hG _ (hnodes k a hc)).1] at this
  case var =>
    intro w hg
    by_cases e : w = v
    · subst e
      simp only [upd_self]
      exact ⟨hnew, fun hc => (hnew' hc).2⟩
    · simp only [upd_ne _ _ e]
      obtain ⟨h1, h2⟩ := L.var w (hw w e hg)
      have hne := hvars w e (hw w e hg)
      refine ⟨keep hne h1, fun hc => ?_⟩
      rw [(hG _ (hne hc)).2, (hG _ (hne hc)).1]
      exact h2 hc
  case varInj =>
    intro w w' hg hg' hc hc' ha
    by_cases e : w = v
    · by_cases e' : w' = v
      · rw [e, e']
      · subst e
        simp only [upd_self, upd_ne _ _ e'] at hc hc' ha
        exact absurd (ha.symm.trans (hnew' hc).1) (hvars w' e' (hw w' e' hg') hc')
    · by_cases e' : w' = v
      · subst e'
        simp only [upd_self, upd_ne _ _ e] at hc hc' ha
        exact absurd (ha.trans (hnew' hc').1) (hvars w e (hw w e hg) hc)
      · simp only [upd_ne _ _ e, upd_ne _ _ e'] at hc hc' ha
        exact L.varInj w w' (hw w e hg) (hw w' e' hg') hc hc' ha

/-- The program makes a new array. -/
theorem Lock.newVar (L : Lock n 0 κ0 as s gone c G) (v : Nat) (val' : List Annotation) (spare : Nat) :
    ∃ G', Lock n 0 κ0 as { s with arrays := (allocate s.arrays val' spare).1, vars := upd s.vars v (allocate s.arrays val' spare).2 } (upd gone v false)
      { c with vars := upd c.vars v val' } G' := by
  have hold : ∀ {i : Nat} {b0 : List Annotation}, s.arrays[i]? = some b0 → i ≠ s.arrays.length := by
    intro i b0 h e
    have := (List.getElem?_eq_some_iff.1 h).1
    omega
  refine ⟨⟨upd G.text s.arrays.length val', upd G.owner s.arrays.length none⟩,
    L.setVar (i := s.arrays.length) ?_ ?_ ?_ ?_ ?_ ?_⟩
  · refine ⟨rfl, Nat.le_add_right .., fun _ => ⟨val' ++ List.replicate spare default, by simp [allocate], by simp [allocate], ?_, ?_⟩⟩
    · show _ <+: upd G.text s.arrays.length _ s.arrays.length
      rw [upd_self]; exact List.prefix_rfl
    · show upd G.text s.arrays.length _ s.arrays.length <+: _
      rw [upd_self]; exact List.prefix_append _ _
  · exact fun _ => ⟨rfl, upd_self .., upd_self ..⟩
  · intro i' b _ h
    have hlt := (List.getElem?_eq_some_iff.1 h).1
    rw [show (allocate s.arrays val' spare).1 = s.arrays ++ [val' ++ List.replicate spare default] from rfl, List.getElem?_append_left hlt, h]
  · intro i' h
    exact ⟨upd_ne _ _ h, upd_ne _ _ h⟩
  · intro k a h
    obtain ⟨b, b1, _⟩ := (L.node k a).2.2 h
    exact hold b1
  · intro w _ hg h
    obtain ⟨b, b1, _⟩ := (L.var w hg).1.2.2 h
    exact hold b1

/-- The program changes an array of its own. -/
theorem Lock.ownVar (L : Lock n 0 κ0 as s gone c G) {v : Nat} (hv : gone v = false) (hc : 0 < (s.vars v).cap) {b : List Annotation} {len : Nat}
    {val' : List Annotation} (hb : b.length = (s.vars v).cap) (hval : val' <+: b) (hlen : val'.length = len) :
    ∃ G', Lock n 0 κ0 as { s with arrays := s.arrays.set (s.vars v).arr b, vars := upd s.vars v { s.vars v with len := len } } (upd gone v false)
      { c with vars := upd c.vars v val' } G' := by
  obtain ⟨V1, V2⟩ := L.var v hv
  obtain ⟨b0, b1, b2, _⟩ := V1.2.2 hc
  refine ⟨⟨upd G.text (s.vars v).arr val', G.owner⟩, L.setVar (i := (s.vars v).arr) ?_ ?_ ?_ ?_ ?_ ?_⟩
  · refine ⟨hlen.symm, by rw [← hlen, ← hb]; exact hval.length_le, fun _ => ⟨b, ?_, hb, ?_, ?_⟩⟩
    · rw [getElem?_set_cases b1, if_pos rfl]
    · show _ <+: upd G.text _ _ _
      rw [upd_self]; exact List.prefix_rfl
    · show upd G.text _ _ _ <+: _
      rw [upd_self]; exact hval
  · exact fun _ => ⟨rfl, (V2 hc).1, upd_self ..⟩
  · intro i' b' hi h
    rw [getElem?_set_cases h, if_neg hi]
  · intro i' h
    exact ⟨upd_ne _ _ h, rfl⟩
  · intro k a h e
    exact absurd (e ▸ (V2 hc).1) (L.owned k a h)
  · intro w hw hg h e
    exact hw (L.varInj w v hg hv h hc e)

theorem lock_gone_same {v : Nat} (hv : gone v = false) (L : Lock n 0 κ0 as s (upd gone v false) c G) : Lock n 0 κ0 as s gone c G := by
  rwa [upd_same hv] at L

theorem delete_spanGet (ids : List ID) (t i : ID) : ∀ ms : MemStore,
    (ms.delete ids).spanGet t i = if t ∈ ids then none else ms.spanGet t i := by
  induction ids with
  | nil => intro ms; simp [MemStore.delete]
  | cons x ids ih =>
    intro ms
    rw [MemStore.delete, ih]
    by_cases h1 : t ∈ ids
    · simp [h1]
    · by_cases h2 : t = x
      · subst h2
        simp [h1, MemStore.spanGet, AMap.get_del_self]
      · have : AMap.get (AMap.del ms.span x) t = AMap.get ms.span t := by simp [AMap.get_del, Ne.symm h2]
        simp [h1, h2, MemStore.spanGet, this]

theorem delete_next (ids : List ID) : ∀ ms : MemStore, (ms.delete ids).next = ms.next := by
  induction ids with
  | nil => intro ms; rfl
  | cons t ids ih => intro ms; exact ih { ms with trace := ms.trace.del t, span := ms.span.del t }

/-- A store deletes traces. -/
theorem Lock.delete (L : Lock n 0 κ0 as s gone c G) (k0 : Nat) (ids : List ID) :
    Lock n 0 κ0 as { s with stores := upd s.stores k0 { s.stores k0 with tree := (s.stores k0).tree.delete ids } } gone
      { c with stores := upd c.stores k0 ((c.stores k0).delete ids) } G := by
  have slive : ∀ {k κ a}, Sys.isLive { s with stores := upd s.stores k0 { s.stores k0 with tree := (s.stores k0).tree.delete ids } } k κ a →
      s.isLive k κ a := by
    intro k κ a h
    by_cases hk : k = k0
    · subst hk
      simp only [Sys.isLive, upd_self] at h ⊢
      rw [delete_spanGet] at h
      split at h
      · cases h
      · exact h
    · simp only [Sys.isLive, upd_ne _ _ hk] at h ⊢
      exact h
  have sanns : ∀ k a, (({ s with stores := upd s.stores k0 { s.stores k0 with tree := (s.stores k0).tree.delete ids } } : Sys).stores k).anns a =
      (s.stores k).anns a := by
    intro k a
    by_cases hk : k = k0
    · subst hk; simp only [upd_self]
    · simp only [upd_ne _ _ hk]
  have cval : ∀ k a, ((({ c with stores := upd c.stores k0 ((c.stores k0).delete ids) } : Spec.Copying).stores k).heap a).anns = ((c.stores k).heap a).anns := by
    intro k a
    by_cases hk : k = k0
    · subst hk; simp only [upd_self, delete_heap]
    · simp only [upd_ne _ _ hk]
  constructor
  case tree =>
    intro k
    by_cases hk : k = k0
    · subst hk
      simp only [upd_self]
      rw [delete_heap]
      conv => lhs; rw [L.tree k]
      exact delete_withAnns _ _ _
    · simp only [upd_ne _ _ hk]; exact L.tree k
  case idle => exact fun k hk κ a h => L.idle k hk κ a (slive h)
  case inj => exact fun k κ κ' a h h' => L.inj k κ κ' a (slive h) (slive h')
  case lt =>
    intro k κ a h
    have := L.lt k κ a (slive h)
    by_cases hk : k = k0
    · subst hk; simp only [upd_self, delete_next]; exact this
    · simp only [upd_ne _ _ hk]; exact this
  case node =>
    intro k a
    rw [sanns, cval]
    exact L.node k a
  case owned =>
    intro k a
    rw [sanns]
    exact L.owned k a
  case live =>
    intro k κ a h hc
    rw [sanns] at hc ⊢
    rw [cval]
    obtain ⟨h1, h2⟩ := L.live k κ a (slive h) hc
    refine ⟨h1, .inl ⟨?_, fun _ _ k' hk' => absurd hk' (Nat.not_lt_zero _)⟩⟩
    rcases h2 with h2 | ⟨_, _, _, k', hk', _⟩
    · exact h2.1
    · exact absurd hk' (Nat.not_lt_zero _)
  case var => exact L.var
  case varInj => exact L.varInj

/-- One operation of a program with a `MultiStore`. -/
theorem Lock.step (L : Lock n 0 κ0 as s gone c G) {op : Spec.MultiOp} {p : List Spec.MultiOp} (P : Spec.MultiHandsOver gone (op :: p)) :
    (s.run (op.ops n) = none ∧ c.run (op.ops n) = none) ∨
      ∃ s' c' gone' κ1 bs G', s.run (op.ops n) = some s' ∧ c.run (op.ops n) = some c' ∧ Lock n 0 κ1 bs s' gone' c' G' ∧
        Spec.MultiHandsOver gone' p := by
  cases op with
  | make v val spare =>
    right
    obtain ⟨G', L'⟩ := L.newVar v val spare
    exact ⟨_, _, _, κ0, as, G', rfl, rfl, L', P⟩
  | append v val spare =>
    right
    obtain ⟨hv, P⟩ := P
    obtain ⟨V1, V2⟩ := L.var v hv
    have : ∃ G', Lock n 0 κ0 as { s with arrays := ((s.vars v).append s.arrays val spare).1, vars := upd s.vars v ((s.vars v).append s.arrays val spare).2 }
        gone { c with vars := upd c.vars v (c.vars v ++ val) } G' := by
      by_cases hfit : (s.vars v).len + val.length ≤ (s.vars v).cap
      · by_cases hc : 0 < (s.vars v).cap
        · obtain ⟨b, b1, b2, b3, b4⟩ := V1.2.2 hc
          have htake : b.take (s.vars v).len = c.vars v := by
            obtain ⟨r, hr⟩ := b3.trans b4
            rw [← hr, V1.1, List.take_left']
            rfl
          have happ : (s.vars v).append s.arrays val spare =
              (s.arrays.set (s.vars v).arr (c.vars v ++ val ++ b.drop ((s.vars v).len + val.length)),
                { s.vars v with len := (s.vars v).len + val.length }) := by
            simp [Slice.append, hfit, b1, htake]
          rw [happ]
          obtain ⟨G', L'⟩ := L.ownVar hv hc (b := c.vars v ++ val ++ b.drop ((s.vars v).len + val.length)) (len := (s.vars v).len + val.length)
            (val' := c.vars v ++ val) (by simp [← V1.1]; omega) (List.prefix_append _ _) (by simp [V1.1])
          exact ⟨G', lock_gone_same hv L'⟩
        · have hl : (s.vars v).len = 0 := by have := V1.2.1; omega
          have has : val = [] := List.length_eq_zero_iff.1 (by omega)
          subst has
          have happ : (s.vars v).append s.arrays [] spare = (s.arrays, s.vars v) := by
            have e1 : s.arrays.set (s.vars v).arr (s.arrays[(s.vars v).arr]?.getD []) = s.arrays := by
              by_cases h : (s.vars v).arr < s.arrays.length
              · simp [h]
              · exact List.set_eq_of_length_le (Nat.le_of_not_lt h)
            have e2 : ({ s.vars v with len := 0 } : Slice) = s.vars v := by rw [← hl]
            unfold Slice.append
            rw [if_pos hfit]
            simp only [hl, List.take_zero, List.nil_append, List.length_nil, Nat.add_zero, List.drop_zero]
            rw [e1, e2]
          rw [happ, List.append_nil, upd_same rfl, upd_same rfl]
          exact ⟨G, L⟩
      · have happ : (s.vars v).append s.arrays val spare = allocate s.arrays (c.vars v ++ val) spare := by
          simp [Slice.append, hfit, V1.read_eq]
        rw [happ]
        obtain ⟨G', L'⟩ := L.newVar v (c.vars v ++ val) spare
        exact ⟨G', lock_gone_same hv L'⟩
    obtain ⟨G', L'⟩ := this
    exact ⟨_, _, _, κ0, as, G', rfl, rfl, L', P⟩
  | write v i a =>
    right
    obtain ⟨hv, P⟩ := P
    obtain ⟨V1, V2⟩ := L.var v hv
    have : ∃ G', Lock n 0 κ0 as { s with arrays := (s.vars v).write s.arrays i a } gone { c with vars := upd c.vars v ((c.vars v).set i a) } G' := by
      unfold Slice.write
      split
      · next hi =>
        have hc : 0 < (s.vars v).cap := by have := V1.2.1; omega
        obtain ⟨b, b1, b2, b3, b4⟩ := V1.2.2 hc
        obtain ⟨r, hr⟩ := b3.trans b4
        obtain ⟨G', L'⟩ := L.ownVar hv hc (b := b.set i a) (len := (s.vars v).len) (val' := (c.vars v).set i a) (by simp [b2])
          ⟨r, by rw [← hr, List.set_append_left]; rw [← V1.1]; exact hi⟩ (by simp [V1.1])
        have e : upd s.vars v { s.vars v with len := (s.vars v).len } = s.vars := upd_same rfl
        rw [e] at L'
        refine ⟨G', ?_⟩
        rw [b1]
        exact lock_gone_same hv L'
      · next hi =>
        rw [List.set_eq_of_length_le (by rw [← V1.1]; omega), upd_same rfl]
        exact ⟨G, L⟩
    obtain ⟨G', L'⟩ := this
    exact ⟨_, _, _, κ0, as, G', rfl, rfl, L', P⟩
  | collect id v spares =>
    obtain ⟨hv, P⟩ := P
    obtain ⟨L1, Q⟩ := L.give hv (id.trace, id.span)
    have := Lock.rest (n := n) (spares := spares) rfl n 0 (by omega) L1 Q
    rw [← List.range_eq_range'] at this
    rcases this with h | ⟨s', c', G', h1, h2, L'⟩
    · exact .inl h
    · exact .inr ⟨s', c', _, κ0, as, G', h1, h2, L'.finish κ0 as, P⟩
  | delete k ids =>
    right
    exact ⟨_, _, _, κ0, as, G, rfl, rfl, L.delete k ids, P⟩

theorem Lock.contents (L : Lock n j κ0 as s gone c G) (k : Nat) : (s.stores k).contents s.arrays = c.stores k := by
  rw [L.tree k]
  have : (fun a => ((c.stores k).heap a).anns) = fun a => ((s.stores k).anns a).read s.arrays := by
    funext a
    exact (L.node k a).read_eq.symm
  rw [this]
  rfl

theorem lock_init (n : Nat) : Lock n 0 (0, 0) [] {} (fun _ => false) {} ⟨fun _ => [], fun _ => none⟩ := by
  constructor
  case tree => intro k; rfl
  case idle => intro k _ κ a h; simp [Sys.isLive, MemStore.spanGet, MemStore.new] at h
  case inj => intro k κ κ' a h; simp [Sys.isLive, MemStore.spanGet, MemStore.new] at h
  case lt => intro k κ a h; simp [Sys.isLive, MemStore.spanGet, MemStore.new] at h
  case node => intro k a; exact ⟨rfl, Nat.le_refl _, fun h => absurd h (by simp)⟩
  case owned => intro k a h; exact absurd h (by simp)
  case live => intro k κ a _ h; exact absurd h (by simp)
  case var => intro v _; exact ⟨⟨rfl, Nat.le_refl _, fun h => absurd h (by simp)⟩, fun h => absurd h (by simp)⟩
  case varInj => intro v w _ _ h; exact absurd h (by simp)

end Slices

end Appdash
