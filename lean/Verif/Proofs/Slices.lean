import Verif.Spec.Slices

/-!
# Proofs about shared annotation slices
-/

namespace Appdash

namespace MemStore

/-- The store with other annotations. -/
def withAnns (ms : MemStore) (g : Nat → List Annotation) : MemStore := { ms with heap := fun a => { ms.heap a with anns := g a } }

variable (ms : MemStore) (g : Nat → List Annotation)

theorem withAnns_withAnns (g' : Nat → List Annotation) : (ms.withAnns g).withAnns g' = ms.withAnns g' := rfl

theorem appendSub_withAnns (p : Nat) (cs : List Nat) : (ms.withAnns g).appendSub p cs = (ms.appendSub p cs).withAnns g := by
  unfold appendSub withAnns heapUpd
  congr 1
  funext x
  dsimp only
  split
  · next h => subst h; rfl
  · rfl

theorem setSub_withAnns (p : Nat) (cs : List Nat) : (ms.withAnns g).setSub p cs = (ms.setSub p cs).withAnns g := by
  unfold setSub withAnns heapUpd
  congr 1
  funext x
  dsimp only
  split
  · next h => subst h; rfl
  · rfl

theorem insert_withAnns (r t : Nat) : (ms.withAnns g).insert r t = (ms.insert r t).withAnns g := by
  unfold insert
  show (match ms.spanGet (ms.heap t).id.trace (ms.heap t).id.parent with
    | some p => (ms.withAnns g).appendSub p [t]
    | none => (ms.withAnns g).appendSub r [t]) = _
  cases ms.spanGet (ms.heap t).id.trace (ms.heap t).id.parent <;> exact appendSub_withAnns ..

theorem reattachChildren_withAnns (d s : Nat) :
    (ms.withAnns g).reattachChildren d s = (ms.reattachChildren d s).map (·.withAnns g) := by
  unfold reattachChildren
  split
  · rfl
  · dsimp only
    rw [appendSub_withAnns, setSub_withAnns]
    rfl

theorem moveTempChildren_withAnns (r o : Nat) : (ms.withAnns g).moveTempChildren r o = (ms.moveTempChildren r o).withAnns g := by
  unfold moveTempChildren
  dsimp only
  rw [appendSub_withAnns, setSub_withAnns]
  rfl

theorem fixRoot_withAnns (id : SpanID) (s r : Nat) :
    (ms.withAnns g).fixRoot id s r = (ms.fixRoot id s r).map fun p => (p.1.withAnns g, p.2) := by
  unfold fixRoot
  show (if s ≠ r ∧ (id.isRoot = true ∨ (ms.heap r).id.parent = id.span) then _ else _) = _
  split
  · dsimp only
    have : ({ ms.withAnns g with trace := (ms.withAnns g).trace.set id.trace s } : MemStore) =
      ({ ms with trace := ms.trace.set id.trace s } : MemStore).withAnns g := rfl
    rw [this, reattachChildren_withAnns]
    cases reattachChildren ({ ms with trace := ms.trace.set id.trace s } : MemStore) s r with
    | none => rfl
    | some ms' =>
      simp only [Option.map_some]
      rw [insert_withAnns, moveTempChildren_withAnns]
  · rfl

theorem attach_withAnns (id : SpanID) (s : Nat) : (ms.withAnns g).attach id s = (ms.attach id s).map (·.withAnns g) := by
  have hr : ∀ (ms : MemStore) (r : Nat),
      (match (ms.withAnns g).fixRoot id s r with
        | none => none
        | some (ms, root) =>
          let ms := if id.isRoot = false ∧ s ≠ root then ms.insert root s else ms
          if s ≠ root then ms.reattachChildren s root else some ms) =
      (match ms.fixRoot id s r with
        | none => none
        | some (ms, root) =>
          let ms := if id.isRoot = false ∧ s ≠ root then ms.insert root s else ms
          if s ≠ root then ms.reattachChildren s root else some ms).map (fun x : MemStore => x.withAnns g) := by
    intro ms r
    rw [fixRoot_withAnns]
    cases ms.fixRoot id s r with
    | none => rfl
    | some p =>
      obtain ⟨ms', root⟩ := p
      simp only [Option.map_some]
      by_cases h1 : s = root
      · simp [h1]
      · by_cases h2 : id.isRoot = false
        · simp only [h1, h2, ne_eq, not_false_eq_true, and_self, if_true]
          rw [insert_withAnns, reattachChildren_withAnns]
        · have h3 : ¬ (id.isRoot = false ∧ s ≠ root) := fun h => h2 h.1
          rw [if_neg h3, if_neg h3]
          simp only [ne_eq, h1, not_false_eq_true, if_true]
          rw [reattachChildren_withAnns]
  unfold attach
  have ht : (ms.withAnns g).trace.get id.trace = ms.trace.get id.trace := rfl
  cases hm : ms.trace.get id.trace with
  | some r => rw [ht, hm]; exact hr ms r
  | none => rw [ht, hm]; exact hr { ms with trace := ms.trace.set id.trace s } s

/-- How `Collect` changes annotations, whatever they are. -/
theorem collect_withAnns (id : SpanID) (as : List Annotation) :
    (ms.withAnns g).collect id as =
      (ms.collect id []).map (fun x : MemStore => x.withAnns (match ms.spanGet id.trace id.span with
        | some a => Slices.upd g a (g a ++ as)
        | none => Slices.upd g ms.next as)) := by
  have hs : ms.spanGet id.trace id.span = AMap.get ((ms.span.get id.trace).getD []) id.span := by
    unfold spanGet
    cases ms.span.get id.trace <;> rfl
  rw [hs]
  unfold collect
  have ht : (ms.withAnns g).span.get id.trace = ms.span.get id.trace := rfl
  rw [ht]
  cases hg : AMap.get ((ms.span.get id.trace).getD []) id.span with
  | some s =>
    simp only [hg, Option.map_some]
    apply congrArg some
    unfold withAnns heapUpd Slices.upd
    congr 1
    funext x
    dsimp only
    split
    · next h => subst h; rfl
    · rfl
  | none =>
    simp only [hg]
    rw [← attach_withAnns]
    congr 1
    unfold withAnns heapUpd Slices.upd
    congr 1
    funext x
    dsimp only
    split <;> rfl

end MemStore

namespace Slices

/-! ## Slices that share no arrays -/

/-- A slice fits its array. -/
def Fits (m : Arrays) (s : Slice) : Prop := s.len ≤ s.cap ∧ (0 < s.cap → ∃ a, m[s.arr]? = some a ∧ a.length = s.cap)

/-- `held` are slices, none of which shares its array with another, and `val` are their elements. -/
structure Unshared {H : Type} (m : Arrays) (held : H → Option Slice) (val : H → Option (List Annotation)) : Prop where
  fits : ∀ h s, held h = some s → Fits m s
  own : ∀ h h' s s', held h = some s → held h' = some s' → 0 < s.cap → 0 < s'.cap → s.arr = s'.arr → h = h'
  reads : ∀ h, val h = (held h).map fun s => s.read m

variable {H : Type} [DecidableEq H] {m : Arrays} {held : H → Option Slice} {val : H → Option (List Annotation)}

theorem upd_self {α β : Type} [DecidableEq α] (f : α → β) (a : α) (b : β) : upd f a b a = b := by simp [upd]

theorem upd_ne {α β : Type} [DecidableEq α] (f : α → β) {a x : α} (b : β) (h : x ≠ a) : upd f a b x = f x := by simp [upd, h]

theorem read_length {s : Slice} (h : Fits m s) : (s.read m).length = s.len := by
  unfold Slice.read
  by_cases hc : 0 < s.cap
  · obtain ⟨a, h1, h2⟩ := h.2 hc
    have := h.1
    simp [h1]; omega
  · have := h.1
    have : s.len = 0 := by omega
    simp [this]

/-- Giving up a slice. -/
theorem Unshared.drop (U : Unshared m held val) (h : H) : Unshared m (upd held h none) (upd val h none) where
  fits x s hx := by
    by_cases e : x = h
    · subst e; rw [upd_self] at hx; cases hx
    · rw [upd_ne _ _ e] at hx; exact U.fits x s hx
  own x y s s' hx hy := by
    by_cases e : x = h
    · subst e; rw [upd_self] at hx; cases hx
    · by_cases e' : y = h
      · subst e'; rw [upd_self] at hy; cases hy
      · rw [upd_ne _ _ e] at hx; rw [upd_ne _ _ e'] at hy; exact U.own x y s s' hx hy
  reads x := by
    by_cases e : x = h
    · subst e; rw [upd_self, upd_self]; rfl
    · rw [upd_ne _ _ e, upd_ne _ _ e]; exact U.reads x

/-- Passing a slice on. -/
theorem Unshared.move (U : Unshared m held val) {h h' : H} (hne : h ≠ h') {s : Slice} (hs : held h = some s) :
    Unshared m (upd (upd held h none) h' (some s)) (upd (upd val h none) h' (some (s.read m))) where
  fits x t hx := by
    by_cases e : x = h'
    · subst e; rw [upd_self] at hx; cases hx; exact U.fits h s hs
    · rw [upd_ne _ _ e] at hx; exact (U.drop h).fits x t hx
  own x y t t' hx hy hc hc' ha := by
    have key : ∀ z t, z ≠ h' → upd (upd held h none) h' (some s) z = some t → 0 < t.cap → 0 < s.cap → t.arr = s.arr → False := by
      intro z t hz ht h1 h2 h3
      rw [upd_ne _ _ hz] at ht
      by_cases e : z = h
      · subst e; rw [upd_self] at ht; cases ht
      · rw [upd_ne _ _ e] at ht
        exact e (U.own z h t s ht hs h1 h2 h3)
    by_cases e : x = h'
    · subst e
      by_cases e' : y = x
      · exact e'.symm
      · rw [upd_self] at hx; cases hx
        exact (key y t' e' hy hc' hc ha.symm).elim
    · by_cases e' : y = h'
      · subst e'
        rw [upd_self] at hy; cases hy
        exact (key x t e hx hc hc' ha).elim
      · rw [upd_ne _ _ e] at hx; rw [upd_ne _ _ e'] at hy
        exact (U.drop h).own x y t t' hx hy hc hc' ha
  reads x := by
    by_cases e : x = h'
    · subst e; rw [upd_self, upd_self]; rfl
    · rw [upd_ne _ _ e, upd_ne _ _ e]; exact (U.drop h).reads x

theorem read_grow {s : Slice} (h : Fits m s) (a : List Annotation) : s.read (m ++ [a]) = s.read m := by
  unfold Slice.read
  by_cases hc : 0 < s.cap
  · obtain ⟨b, h1, _⟩ := h.2 hc
    have : s.arr < m.length := (List.getElem?_eq_some_iff.1 h1).1
    rw [List.getElem?_append_left this]
  · have := h.1
    have : s.len = 0 := by omega
    simp [this]

theorem fits_grow {s : Slice} (h : Fits m s) (a : List Annotation) : Fits (m ++ [a]) s := by
  refine ⟨h.1, fun hc => ?_⟩
  obtain ⟨b, h1, h2⟩ := h.2 hc
  have : s.arr < m.length := (List.getElem?_eq_some_iff.1 h1).1
  exact ⟨b, by rw [List.getElem?_append_left this]; exact h1, h2⟩

/-- A new array. -/
theorem Unshared.allocate (U : Unshared m held val) (h : H) (as : List Annotation) (spare : Nat) :
    Unshared (allocate m as spare).1 (upd held h (some (allocate m as spare).2)) (upd val h (some as)) where
  fits x t hx := by
    by_cases e : x = h
    · subst e; rw [upd_self] at hx; cases hx
      exact ⟨Nat.le_add_right .., fun _ => ⟨as ++ List.replicate spare default, by simp [Slices.allocate], by simp [Slices.allocate]⟩⟩
    · rw [upd_ne _ _ e] at hx; exact fits_grow (U.fits x t hx) _
  own x y t t' hx hy hc hc' ha := by
    have key : ∀ z t, z ≠ h → upd held h (some (Slices.allocate m as spare).2) z = some t → 0 < t.cap → t.arr = m.length → False := by
      intro z t hz ht h1 h2
      rw [upd_ne _ _ hz] at ht
      obtain ⟨b, h3, _⟩ := (U.fits z t ht).2 h1
      have : t.arr < m.length := (List.getElem?_eq_some_iff.1 h3).1
      omega
    by_cases e : x = h
    · by_cases e' : y = h
      · rw [e, e']
      · subst e; rw [upd_self] at hx; cases hx
        exact (key y t' e' hy hc' ha.symm).elim
    · by_cases e' : y = h
      · subst e'; rw [upd_self] at hy; cases hy
        exact (key x t e hx hc ha).elim
      · rw [upd_ne _ _ e] at hx; rw [upd_ne _ _ e'] at hy
        exact U.own x y t t' hx hy hc hc' ha
  reads x := by
    by_cases e : x = h
    · subst e; rw [upd_self, upd_self]
      simp [Slices.allocate, Slice.read]
    · rw [upd_ne _ _ e, upd_ne _ _ e, U.reads x]
      cases hx : held x with
      | none => rfl
      | some t => simp only [Option.map_some]; rw [show (Slices.allocate m as spare).1 = m ++ [as ++ List.replicate spare default] from rfl, read_grow (U.fits x t hx)]

/-- Changing the array of one slice. -/
theorem Unshared.change (U : Unshared m held val) {h : H} {s : Slice} (hs : held h = some s) (hc : 0 < s.cap) {a : List Annotation} {n : Nat}
    (hn : n ≤ s.cap) (ha : a.length = s.cap) :
    Unshared (m.set s.arr a) (upd held h (some { s with len := n })) (upd val h (some (a.take n))) := by
  have hlt : s.arr < m.length := by
    obtain ⟨b, h1, _⟩ := (U.fits h s hs).2 hc
    exact (List.getElem?_eq_some_iff.1 h1).1
  have same : ∀ x t, x ≠ h → held x = some t → 0 < t.cap → (m.set s.arr a)[t.arr]? = m[t.arr]? := fun x t hx ht h2 =>
    List.getElem?_set_ne fun h3 => hx (U.own x h t s ht hs h2 hc h3.symm)
  constructor
  · intro x t hx
    by_cases e : x = h
    · subst e; rw [upd_self] at hx; cases hx
      exact ⟨hn, fun _ => ⟨a, by simp [hlt], ha⟩⟩
    · rw [upd_ne _ _ e] at hx
      have F := U.fits x t hx
      exact ⟨F.1, fun h2 => by rw [same x t e hx h2]; exact F.2 h2⟩
  · intro x y t t' hx hy h1 h2 h3
    have get : ∀ {z t}, upd held h (some { s with len := n }) z = some t → ∃ t0, held z = some t0 ∧ t0.cap = t.cap ∧ t0.arr = t.arr := by
      intro z t hz
      by_cases e : z = h
      · subst e; rw [upd_self] at hz; cases hz; exact ⟨s, hs, rfl, rfl⟩
      · rw [upd_ne _ _ e] at hz; exact ⟨t, hz, rfl, rfl⟩
    obtain ⟨u, a1, a2, a3⟩ := get hx
    obtain ⟨u', b1, b2, b3⟩ := get hy
    exact U.own x y u u' a1 b1 (by omega) (by omega) (by omega)
  · intro x
    by_cases e : x = h
    · subst e; rw [upd_self, upd_self]
      simp [Slice.read, hlt]
    · rw [upd_ne _ _ e, upd_ne _ _ e, U.reads x]
      cases hx : held x with
      | none => rfl
      | some t =>
        simp only [Option.map_some, Slice.read]
        by_cases h2 : 0 < t.cap
        · rw [same x t e hx h2]
        · have := (U.fits x t hx).1
          have : t.len = 0 := by omega
          simp [this]

theorem upd_same {α β : Type} [DecidableEq α] {f : α → β} {a : α} {b : β} (h : f a = b) : upd f a b = f := by
  funext x
  unfold upd
  split
  · next e => rw [e, h]
  · rfl

/-- Appending to a slice. -/
theorem Unshared.append (U : Unshared m held val) {h : H} {s : Slice} (hs : held h = some s) (as : List Annotation) (spare : Nat) :
    Unshared (s.append m as spare).1 (upd held h (some (s.append m as spare).2)) (upd val h (some (s.read m ++ as))) := by
  have F := U.fits h s hs
  unfold Slice.append
  split
  · next hle =>
    by_cases hc : 0 < s.cap
    · obtain ⟨b, h1, h2⟩ := F.2 hc
      have e : s.read m ++ as = ((m[s.arr]?.getD []).take s.len ++ as ++ (m[s.arr]?.getD []).drop (s.len + as.length)).take (s.len + as.length) := by
        have hl : (b.take s.len ++ as).length = s.len + as.length := by simp; omega
        simp only [Slice.read, h1, Option.getD_some]
        rw [← hl, List.take_left']
        rfl
      rw [e]
      apply U.change hs hc hle
      simp [h1]
      omega
    · have := F.1
      have hl : s.len = 0 := by omega
      have has : as = [] := List.length_eq_zero_iff.1 (by omega)
      subst has
      have e1 : m.set s.arr ((m[s.arr]?.getD []).take s.len ++ [] ++ (m[s.arr]?.getD []).drop (s.len + ([] : List Annotation).length)) = m := by
        simp only [hl, List.take_zero, List.nil_append, List.length_nil, Nat.add_zero, List.drop_zero]
        by_cases hlt : s.arr < m.length
        · simp [hlt]
        · exact List.set_eq_of_length_le (by omega)
      have e2 : ({ s with len := s.len + ([] : List Annotation).length } : Slice) = s := by simp
      dsimp only
      rw [e1, e2, upd_same hs, List.append_nil, upd_same]
      · exact U
      · rw [U.reads h, hs]; rfl
  · exact U.allocate h _ _

/-- Overwriting an element of a slice. -/
theorem Unshared.write (U : Unshared m held val) {h : H} {s : Slice} (hs : held h = some s) (i : Nat) (a : Annotation) :
    Unshared (s.write m i a) held (upd val h (some ((s.read m).set i a))) := by
  have F := U.fits h s hs
  unfold Slice.write
  split
  · next hi =>
    have hc : 0 < s.cap := by have := F.1; omega
    obtain ⟨b, h1, h2⟩ := F.2 hc
    have := U.change hs hc F.1 (a := (m[s.arr]?.getD []).set i a) (by simp [h1, h2])
    have e : ({ s with len := s.len } : Slice) = s := rfl
    rw [e, upd_same hs] at this
    simpa [Slice.read, h1, List.take_set] using this
  · next hi =>
    rw [List.set_eq_of_length_le (by rw [read_length F]; omega), upd_same]
    · exact U
    · rw [U.reads h, hs]; rfl

/-! ## The program -/

/-- Who holds slices. -/
inductive Holder where
  | var (v : Nat)
  | node (k a : Nat)
  | pend (k : Nat) (e : Entry)
deriving DecidableEq

/-- The slices held. -/
def Sys.heldBy (s : Sys) (gone : Nat → Bool) : Holder → Option Slice
  | .var v => if gone v then none else some (s.vars v)
  | .node k a => some ((s.stores k).anns a)
  | .pend k e => s.pending k e

/-- What the copies are. -/
def _root_.Appdash.Slices.Spec.Copying.valOf (c : Spec.Copying) (gone : Nat → Bool) : Holder → Option (List Annotation)
  | .var v => if gone v then none else some (c.vars v)
  | .node k a => some ((c.stores k).heap a).anns
  | .pend k e => c.pending k e

/-- The program with slices shows what the program with copies shows. -/
structure Shows (s : Sys) (gone : Nat → Bool) (c : Spec.Copying) : Prop where
  mem : Unshared s.arrays (s.heldBy gone) (c.valOf gone)
  tree : ∀ k, (c.stores k) = (s.stores k).tree.withAnns fun a => ((c.stores k).heap a).anns
  gen : s.gen = c.gen

theorem Shows.contents {s : Sys} {gone : Nat → Bool} {c : Spec.Copying} (S : Shows s gone c) (k : Nat) :
    (s.stores k).contents s.arrays = c.stores k := by
  rw [S.tree k]
  have : (fun a => ((c.stores k).heap a).anns) = fun a => ((s.stores k).anns a).read s.arrays := by
    funext a
    have := S.mem.reads (.node k a)
    simpa [Spec.Copying.valOf, Sys.heldBy] using this
  rw [this]
  rfl

theorem upd_apply {α β : Type} [DecidableEq α] (f : α → β) (a x : α) (b : β) : upd f a b x = if x = a then b else f x := rfl

/-- `Collect` on a store, with a slice that somebody gives up. -/
theorem Shows.collect {s : Sys} {gone : Nat → Bool} {c : Spec.Copying} (S : Shows s gone c) (k : Nat) (id : SpanID) {src : Holder}
    (hsrc : ∀ k a, src ≠ .node k a) {sl : Slice} (hsl : s.heldBy gone src = some sl) (spare : Nat) :
    ((s.stores k).collect s.arrays id sl spare = none ∧ (c.stores k).collect id (sl.read s.arrays) = none) ∨
    ∃ r ms, (s.stores k).collect s.arrays id sl spare = some r ∧ (c.stores k).collect id (sl.read s.arrays) = some ms ∧
      Unshared r.1 (upd (Sys.heldBy { s with arrays := r.1, stores := upd s.stores k r.2 } gone) src none)
        (upd (Spec.Copying.valOf { c with stores := upd c.stores k ms } gone) src none) ∧
      ms = r.2.tree.withAnns fun a => (ms.heap a).anns := by
  have hc := MemStore.collect_withAnns (s.stores k).tree (fun a => ((c.stores k).heap a).anns) id (sl.read s.arrays)
  rw [← S.tree k] at hc
  unfold Store.collect
  cases ht : (s.stores k).tree.collect id [] with
  | none => rw [ht] at hc; exact .inl ⟨rfl, hc⟩
  | some tree =>
    right
    rw [ht] at hc
    cases hg : (s.stores k).tree.spanGet id.trace id.span with
    | some a =>
      rw [hg] at hc
      simp only [Option.map_some] at hc
      refine ⟨_, _, rfl, hc, ?_, rfl⟩
      have hold : s.heldBy gone (.node k a) = some ((s.stores k).anns a) := rfl
      have hval : ((c.stores k).heap a).anns = ((s.stores k).anns a).read s.arrays := by
        simpa [Spec.Copying.valOf, Sys.heldBy] using S.mem.reads (.node k a)
      have U := (S.mem.append hold (sl.read s.arrays) spare).drop src
      have e1 : ∀ (m : Arrays) (x : Slice), upd (s.heldBy gone) (.node k a) (some x) = Sys.heldBy { s with
          arrays := m, stores := upd s.stores k ⟨tree, fun y => if y = a then x else (s.stores k).anns y⟩ } gone := by
        intro m x
        funext h
        cases h with
        | var v => simp [upd_apply, Sys.heldBy]
        | pend k' e => simp [upd_apply, Sys.heldBy]
        | node k' b =>
          by_cases hk : k' = k
          · subst hk
            by_cases hb : b = a <;> simp [upd_apply, Sys.heldBy, hb]
          · simp [upd_apply, Sys.heldBy, hk]
      have e2 : ∀ (g : Nat → List Annotation) (x : List Annotation), g = (fun a => ((c.stores k).heap a).anns) →
          upd (c.valOf gone) (.node k a) (some x) = Spec.Copying.valOf { c with stores := upd c.stores k (tree.withAnns (upd g a x)) } gone := by
        intro g x hgx
        subst hgx
        funext h
        cases h with
        | var v => simp [upd_apply, Spec.Copying.valOf]
        | pend k' e => simp [upd_apply, Spec.Copying.valOf]
        | node k' b =>
          by_cases hk : k' = k
          · subst hk
            by_cases hb : b = a <;> simp [upd_apply, Spec.Copying.valOf, hb, MemStore.withAnns]
          · simp [upd_apply, Spec.Copying.valOf, hk]
      rw [e1, e2 _ _ rfl, ← hval] at U
      exact U
    | none =>
      rw [hg] at hc
      simp only [Option.map_some] at hc
      refine ⟨_, _, rfl, hc, ?_, rfl⟩
      have U := S.mem.move (hsrc k (s.stores k).tree.next) hsl
      have e1 : upd (upd (s.heldBy gone) src none) (.node k (s.stores k).tree.next) (some sl) = upd (Sys.heldBy { s with
          arrays := s.arrays, stores := upd s.stores k ⟨tree, fun y => if y = (s.stores k).tree.next then sl else (s.stores k).anns y⟩ } gone) src none := by
        funext h
        by_cases hsr : h = src
        · subst hsr
          rw [upd_self, upd_ne _ _ (hsrc _ _), upd_self]
        · rw [upd_ne _ _ hsr]
          cases h with
          | var v => simp [upd_apply, Sys.heldBy, hsr]
          | pend k' e => simp [upd_apply, Sys.heldBy, hsr]
          | node k' b =>
            by_cases hk : k' = k
            · subst hk
              by_cases hb : b = (s.stores k').tree.next <;> simp [upd_apply, Sys.heldBy, hb, hsr]
            · simp [upd_apply, Sys.heldBy, hk, hsr]
      have e2 : ∀ (g : Nat → List Annotation) (x : List Annotation), g = (fun a => ((c.stores k).heap a).anns) →
          upd (upd (c.valOf gone) src none) (.node k (s.stores k).tree.next) (some x) =
            upd (Spec.Copying.valOf { c with stores := upd c.stores k (tree.withAnns (upd g (s.stores k).tree.next x)) } gone) src none := by
        intro g x hgx
        subst hgx
        funext h
        by_cases hsr : h = src
        · subst hsr
          rw [upd_self, upd_ne _ _ (hsrc _ _), upd_self]
        · rw [upd_ne _ _ hsr]
          cases h with
          | var v => simp [upd_apply, Spec.Copying.valOf, hsr]
          | pend k' e => simp [upd_apply, Spec.Copying.valOf, hsr]
          | node k' b =>
            by_cases hk : k' = k
            · subst hk
              by_cases hb : b = (s.stores k').tree.next <;> simp [upd_apply, Spec.Copying.valOf, hb, MemStore.withAnns, hsr]
            · simp [upd_apply, Spec.Copying.valOf, hk, hsr]
      rw [e1, e2 _ _ rfl] at U
      exact U

theorem heldBy_var (s : Sys) (gone : Nat → Bool) (v : Nat) (m : Arrays) (x : Slice) (b : Bool) :
    Sys.heldBy { s with arrays := m, vars := upd s.vars v x } (upd gone v b) =
      upd (s.heldBy gone) (.var v) (if b then none else some x) := by
  funext h
  cases h with
  | var w => by_cases hw : w = v <;> simp [upd_apply, Sys.heldBy, hw]
  | pend k' e => simp [upd_apply, Sys.heldBy]
  | node k' b => simp [upd_apply, Sys.heldBy]

theorem valOf_var (c : Spec.Copying) (gone : Nat → Bool) (v : Nat) (x : List Annotation) (b : Bool) :
    Spec.Copying.valOf { c with vars := upd c.vars v x } (upd gone v b) = upd (c.valOf gone) (.var v) (if b then none else some x) := by
  funext h
  cases h with
  | var w => by_cases hw : w = v <;> simp [upd_apply, Spec.Copying.valOf, hw]
  | pend k' e => simp [upd_apply, Spec.Copying.valOf]
  | node k' b => simp [upd_apply, Spec.Copying.valOf]

theorem heldBy_gone (s : Sys) (gone : Nat → Bool) (v : Nat) : s.heldBy (upd gone v true) = upd (s.heldBy gone) (.var v) none := by
  funext h
  cases h with
  | var w => by_cases hw : w = v <;> simp [upd_apply, Sys.heldBy, hw]
  | pend k' e => simp [upd_apply, Sys.heldBy]
  | node k' b => simp [upd_apply, Sys.heldBy]

theorem valOf_gone (c : Spec.Copying) (gone : Nat → Bool) (v : Nat) : c.valOf (upd gone v true) = upd (c.valOf gone) (.var v) none := by
  funext h
  cases h with
  | var w => by_cases hw : w = v <;> simp [upd_apply, Spec.Copying.valOf, hw]
  | pend k' e => simp [upd_apply, Spec.Copying.valOf]
  | node k' b => simp [upd_apply, Spec.Copying.valOf]

theorem heldBy_pend (s : Sys) (gone : Nat → Bool) (k : Nat) (e : Entry) (m : Arrays) (x : Option Slice) :
    Sys.heldBy { s with arrays := m, pending := upd s.pending k (upd (s.pending k) e x) } gone = upd (s.heldBy gone) (.pend k e) x := by
  funext h
  cases h with
  | var w => simp [upd_apply, Sys.heldBy]
  | pend k' e' => by_cases hk : k' = k <;> by_cases he : e' = e <;> simp [upd_apply, Sys.heldBy, hk, he]
  | node k' b => simp [upd_apply, Sys.heldBy]

theorem valOf_pend (c : Spec.Copying) (gone : Nat → Bool) (k : Nat) (e : Entry) (x : Option (List Annotation)) :
    Spec.Copying.valOf { c with pending := upd c.pending k (upd (c.pending k) e x) } gone = upd (c.valOf gone) (.pend k e) x := by
  funext h
  cases h with
  | var w => simp [upd_apply, Spec.Copying.valOf]
  | pend k' e' => by_cases hk : k' = k <;> by_cases he : e' = e <;> simp [upd_apply, Spec.Copying.valOf, hk, he]
  | node k' b => simp [upd_apply, Spec.Copying.valOf]

theorem delete_withAnns (g : Nat → List Annotation) (ids : List ID) : ∀ ms : MemStore, (ms.withAnns g).delete ids = (ms.delete ids).withAnns g := by
  induction ids with
  | nil => intro ms; rfl
  | cons t ids ih => intro ms; exact ih { ms with trace := ms.trace.del t, span := ms.span.del t }

theorem delete_heap (ids : List ID) : ∀ ms : MemStore, (ms.delete ids).heap = ms.heap := by
  induction ids with
  | nil => intro ms; rfl
  | cons t ids ih => intro ms; exact ih { ms with trace := ms.trace.del t, span := ms.span.del t }

/-- One operation. -/
theorem Shows.step {s : Sys} {gone : Nat → Bool} {c : Spec.Copying} (S : Shows s gone c) {op : Op} {ops : List Op}
    (P : Spec.HandsOver gone (op :: ops)) :
    (s.step op = none ∧ c.step op = none) ∨
      ∃ s' c' gone', s.step op = some s' ∧ c.step op = some c' ∧ Shows s' gone' c' ∧ Spec.HandsOver gone' ops := by
  have hvar : ∀ {v}, gone v = false → s.heldBy gone (.var v) = some (s.vars v) ∧ (s.vars v).read s.arrays = c.vars v := by
    intro v hv
    have h1 : s.heldBy gone (.var v) = some (s.vars v) := by simp [Sys.heldBy, hv]
    have h2 := S.mem.reads (.var v)
    rw [h1] at h2
    simp only [Spec.Copying.valOf, hv, Bool.false_eq_true, if_false, Option.map_some, Option.some.injEq] at h2
    exact ⟨h1, h2.symm⟩
  cases op with
  | make v as spare =>
    right
    refine ⟨_, _, upd gone v false, rfl, rfl, ⟨?_, S.tree, S.gen⟩, P⟩
    rw [heldBy_var, valOf_var]
    exact S.mem.allocate _ _ _
  | append v as spare =>
    right
    obtain ⟨hv, P⟩ := P
    obtain ⟨h1, h2⟩ := hvar hv
    refine ⟨_, _, gone, rfl, rfl, ⟨?_, S.tree, S.gen⟩, P⟩
    have e : gone = upd gone v false := (upd_same hv).symm
    have := S.mem.append h1 as spare
    dsimp only
    rw [e, heldBy_var, valOf_var]
    rw [h2] at this
    exact this
  | write v i a =>
    right
    obtain ⟨hv, P⟩ := P
    obtain ⟨h1, h2⟩ := hvar hv
    refine ⟨_, _, gone, rfl, rfl, ⟨?_, S.tree, S.gen⟩, P⟩
    have e : gone = upd gone v false := (upd_same hv).symm
    have := S.mem.write h1 i a
    rw [h2] at this
    have e2 := valOf_var c gone v ((c.vars v).set i a) false
    rw [← e] at e2
    simp only [Bool.false_eq_true, if_false] at e2
    rw [← e2] at this
    exact this
  | collect k id v spare =>
    obtain ⟨hv, P⟩ := P
    obtain ⟨h1, h2⟩ := hvar hv
    have := S.collect k id (src := .var v) (by simp) h1 spare
    rw [h2] at this
    rcases this with ⟨e1, e2⟩ | ⟨r, ms, e1, e2, U, ht⟩
    · left; simp [Sys.step, Spec.Copying.step, e1, e2]
    · right
      refine ⟨{ s with arrays := r.1, stores := upd s.stores k r.2 }, { c with stores := upd c.stores k ms }, upd gone v true,
        by simp only [Sys.step, e1], by simp only [Spec.Copying.step, e2, Option.map_some], ⟨?_, ?_, S.gen⟩, P⟩
      · rw [heldBy_gone, valOf_gone]; exact U
      · intro k'
        by_cases hk : k' = k
        · subst hk; simp only [upd_self]; exact ht
        · simp only [upd_ne _ _ hk]; exact S.tree k'
  | delete k ids =>
    right
    refine ⟨_, _, gone, rfl, rfl, ⟨?_, ?_, S.gen⟩, P⟩
    · have e1 : Sys.heldBy { s with stores := upd s.stores k { s.stores k with tree := (s.stores k).tree.delete ids } } gone = s.heldBy gone := by
        funext h
        cases h with
        | node k' b => by_cases hk : k' = k <;> simp [upd_apply, Sys.heldBy, hk]
        | _ => rfl
      have e2 : Spec.Copying.valOf { c with stores := upd c.stores k ((c.stores k).delete ids) } gone = c.valOf gone := by
        funext h
        cases h with
        | node k' b => by_cases hk : k' = k <;> simp [upd_apply, Spec.Copying.valOf, hk, delete_heap]
        | _ => rfl
      rw [e1, e2]
      exact S.mem
    · intro k'
      by_cases hk : k' = k
      · subst hk
        simp only [upd_self]
        rw [delete_heap]
        conv => lhs; rw [S.tree k']
        exact delete_withAnns _ _ _
      · simp only [upd_ne _ _ hk]; exact S.tree k'
  | queue k id v spare =>
    right
    obtain ⟨hv, P⟩ := P
    obtain ⟨h1, h2⟩ := hvar hv
    have hp := S.mem.reads (.pend k (s.gen k, id))
    have hne : ∀ e, Holder.pend k e ≠ .var v := by intro e; simp
    simp only [Spec.Copying.valOf, Sys.heldBy] at hp
    cases hpend : s.pending k (s.gen k, id) with
    | some p =>
      rw [hpend] at hp
      have hheld : s.heldBy gone (.pend k (s.gen k, id)) = some p := hpend
      have U := (S.mem.append hheld (c.vars v) spare).drop (.var v)
      simp only [Option.map_some] at hp
      rw [← heldBy_pend, ← heldBy_gone, ← valOf_pend, ← valOf_gone] at U
      by_cases hl : (s.vars v).len > 0
      · refine ⟨{ s with
          arrays := (p.append s.arrays ((s.vars v).read s.arrays) spare).1
          pending := upd s.pending k (upd (s.pending k) (s.gen k, id) (some (p.append s.arrays ((s.vars v).read s.arrays) spare).2)) }, _,
          upd gone v true, by simp only [Sys.step, hpend, hl, if_true], rfl, ⟨?_, S.tree, S.gen⟩, P⟩
        rw [← S.gen, hp, h2]
        exact U
      · refine ⟨s, _, upd gone v true, by simp only [Sys.step, hpend, hl, if_false], rfl, ⟨?_, S.tree, S.gen⟩, P⟩
        have hnil : c.vars v = [] := by
          rw [← h2]
          apply List.length_eq_zero_iff.1
          rw [read_length (S.mem.fits _ _ h1)]
          omega
        rw [hnil]
        have U' := S.mem.drop (.var v)
        rw [← heldBy_gone, ← valOf_gone] at U'
        have e : ({ c with pending := upd c.pending k (upd (c.pending k) (c.gen k, id) (some ((c.pending k (c.gen k, id)).getD [] ++ []))) } : Spec.Copying) = c := by
          have e1 : upd (c.pending k) (c.gen k, id) (some ((c.pending k (c.gen k, id)).getD [] ++ [])) = c.pending k :=
            upd_same (by rw [← S.gen, hp]; simp)
          rw [e1, upd_same rfl]
        rw [e]
        exact U'
    | none =>
      rw [hpend] at hp
      have U := S.mem.move (h := .var v) (h' := .pend k (s.gen k, id)) (by simp) h1
      rw [← heldBy_gone, ← valOf_gone, ← heldBy_pend _ _ _ _ s.arrays, ← valOf_pend, h2] at U
      refine ⟨{ s with pending := upd s.pending k (upd (s.pending k) (s.gen k, id) (some (s.vars v))) }, _, upd gone v true,
        by simp only [Sys.step, hpend], rfl, ⟨?_, S.tree, S.gen⟩, P⟩
      rw [← S.gen, hp]
      exact U
  | flush k =>
    right
    refine ⟨_, _, gone, rfl, rfl, ⟨S.mem, S.tree, ?_⟩, P⟩
    show upd s.gen k (s.gen k + 1) = upd c.gen k (c.gen k + 1)
    rw [S.gen]
  | send k e spare =>
    have hp := S.mem.reads (.pend k e)
    simp only [Spec.Copying.valOf, Sys.heldBy] at hp
    by_cases hg : e.1 < s.gen k
    · have hg' : e.1 < c.gen k := by rw [← S.gen]; exact hg
      cases hpend : s.pending k e with
      | none =>
        rw [hpend] at hp
        right
        refine ⟨s, c, gone, by simp only [Sys.step, hg, hpend, if_true], ?_, S, P⟩
        simp only [Spec.Copying.step, hg', hp, if_true, Option.map_none]
      | some p =>
        rw [hpend] at hp
        simp only [Option.map_some] at hp
        have hheld : s.heldBy gone (.pend k e) = some p := hpend
        rcases S.collect k e.2 (by simp) hheld spare with ⟨e1, e2⟩ | ⟨r, ms, e1, e2, U, ht⟩
        · left
          simp [Sys.step, Spec.Copying.step, hg, hg', hp, hpend, e1, e2]
        · right
          refine ⟨{ s with arrays := r.1, stores := upd s.stores k r.2, pending := upd s.pending k (upd (s.pending k) e none) },
            { c with stores := upd c.stores k ms, pending := upd c.pending k (upd (c.pending k) e none) }, gone,
            by simp only [Sys.step, hg, hpend, e1, if_true], by simp only [Spec.Copying.step, hg', hp, e2, Option.map_some, if_true], ⟨?_, ?_, S.gen⟩, P⟩
          · rw [← heldBy_pend _ _ _ _ r.1, ← valOf_pend] at U
            exact U
          · intro k'
            by_cases hk : k' = k
            · subst hk; simp only [upd_self]; exact ht
            · simp only [upd_ne _ _ hk]; exact S.tree k'
    · have hg' : ¬ e.1 < c.gen k := by rw [← S.gen]; exact hg
      right
      exact ⟨s, c, gone, by simp only [Sys.step, hg, if_false], by simp only [Spec.Copying.step, hg', if_false], S, P⟩
  | drop k e =>
    right
    refine ⟨_, _, gone, rfl, rfl, ⟨?_, S.tree, S.gen⟩, P⟩
    have U := S.mem.drop (.pend k e)
    rw [← heldBy_pend _ _ _ _ s.arrays, ← valOf_pend] at U
    exact U

theorem Shows.run : ∀ {ops : List Op} {s : Sys} {gone : Nat → Bool} {c : Spec.Copying}, Shows s gone c → Spec.HandsOver gone ops →
    (s.run ops = none ∧ c.run ops = none) ∨
      ∃ s' c' gone', s.run ops = some s' ∧ c.run ops = some c' ∧ Shows s' gone' c'
  | [], s, gone, c, S, _ => .inr ⟨s, c, gone, rfl, rfl, S⟩
  | op :: ops, s, gone, c, S, P => by
    rcases S.step P with ⟨h1, h2⟩ | ⟨s', c', gone', h1, h2, S', P'⟩
    · left; simp [Sys.run, Spec.Copying.run, h1, h2]
    · rw [Sys.run, Spec.Copying.run, h1, h2]
      exact S'.run P'

theorem shows_init : Shows {} (fun _ => false) {} where
  mem := by
    refine ⟨?_, ?_, ?_⟩
    · intro h s hs
      cases h <;> simp [Sys.heldBy] at hs <;> subst hs <;> exact ⟨Nat.le_refl _, fun h => absurd h (by simp)⟩
    · intro h h' s s' hs _ h1
      exfalso
      cases h <;> simp [Sys.heldBy] at hs <;> subst hs <;> simp at h1
    · intro h
      cases h <;> rfl
  tree k := rfl
  gen := rfl

end Slices

end Appdash
