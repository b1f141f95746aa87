import Verif.Model.ReadingSteps
import Verif.Proofs.Reading

/-!
# Facts about reading in the middle of calls
-/

namespace Appdash

open Spec

/-! ## The steps of a call lead to its result -/

theorem appendSub_nil (ms : MemStore) (p : Addr) : ms.appendSub p [] = ms := by
  have : heapUpd ms.heap p { ms.heap p with sub := (ms.heap p).sub ++ [] } = ms.heap := by
    funext x
    by_cases e : x = p
    · subst e; simp [heapUpd]
    · simp [heapUpd, e]
  simp only [MemStore.appendSub, this]

theorem appendSub_append (ms : MemStore) (p : Addr) (cs ds : List Addr) : (ms.appendSub p cs).appendSub p ds = ms.appendSub p (cs ++ ds) := by
  simp only [MemStore.appendSub]
  congr 1
  funext x
  by_cases e : x = p
  · subst e; simp [heapUpd]
  · simp [heapUpd, e]

theorem appendEach_last (ms : MemStore) (p : Addr) (cs : List Addr) : (ms.appendEach p cs).getLastD ms = ms.appendSub p cs := by
  induction cs generalizing ms with
  | nil => exact (appendSub_nil ms p).symm
  | cons c cs ih =>
    rw [MemStore.appendEach, List.getLastD_cons, ih, appendSub_append]
    rfl

theorem getLastD_concat {α : Type} (l : List α) (x d : α) : (l ++ [x]).getLastD d = x := by
  simp

theorem getLastD_append {α : Type} (l l' : List α) (d : α) : (l ++ l').getLastD d = l'.getLastD (l.getLastD d) := by
  induction l generalizing d with
  | nil => rfl
  | cons x l ih => rw [List.cons_append, List.getLastD_cons, List.getLastD_cons, ih]

theorem reattachSteps_last {ms ms' : MemStore} {dst src : Addr} (h : ms.reattachChildren dst src = some ms') :
    (ms.reattachSteps dst src).getLastD ms = ms' := by
  unfold MemStore.reattachChildren at h
  split at h
  · cases h
  · injection h with h
    rw [← h, MemStore.reattachSteps, getLastD_concat, appendEach_last]
    congr 1
    apply List.filter_congr
    intro c _
    have : ((ms.appendSub dst ((ms.heap src).sub.filter fun c => decide ((ms.heap c).id.parent = (ms.heap dst).id.span))).heap c).id =
        (ms.heap c).id := by
      simp only [MemStore.appendSub, heapUpd]
      split
      · rename_i e; rw [e]
      · rfl
    rw [this]

theorem moveTempSteps_last (ms : MemStore) (root oldRoot : Addr) :
    (ms.moveTempSteps root oldRoot).getLastD ms = ms.moveTempChildren root oldRoot := by
  rw [MemStore.moveTempSteps, getLastD_concat, appendEach_last, MemStore.moveTempChildren]
  congr 1
  apply List.filter_congr
  intro c _
  have : ((ms.appendSub root ((ms.heap oldRoot).sub.filter fun c => decide ((ms.heap c).id.parent ≠ (ms.heap oldRoot).id.span))).heap c).id =
      (ms.heap c).id := by
    simp only [MemStore.appendSub, heapUpd]
    split
    · rename_i e; rw [e]
    · rfl
  rw [this]

theorem fixRootSteps_last {ms ms' : MemStore} {id : SpanID} {s root root' : Addr} (h : ms.fixRoot id s root = some (ms', root')) :
    (ms.fixRootSteps id s root).1.getLastD ms = ms' ∧ (ms.fixRootSteps id s root).2 = root' := by
  unfold MemStore.fixRoot at h
  unfold MemStore.fixRootSteps
  split at h
  · rename_i hc
    rw [if_pos hc]
    dsimp only at h ⊢
    cases hr : ({ ms with trace := ms.trace.set id.trace s } : MemStore).reattachChildren s root with
    | none => rw [hr] at h; cases h
    | some m =>
      rw [hr] at h
      injection h with h
      injection h with h1 h2
      refine ⟨?_, h2⟩
      rw [List.getLastD_cons, getLastD_append, getLastD_append, reattachSteps_last hr]
      simp only [List.getLastD_cons, List.getLastD_nil]
      rw [moveTempSteps_last, h1]
  · rename_i hc
    rw [if_neg hc]
    injection h with h
    injection h with h1 h2
    exact ⟨h1, h2⟩

theorem attachSteps_tail {m ms' : MemStore} {id : SpanID} {s root : Addr}
    (h : (match m.fixRoot id s root with
      | none => none
      | some (ms, root) =>
        let ms := if id.isRoot = false ∧ s ≠ root then ms.insert root s else ms
        if s ≠ root then ms.reattachChildren s root else some ms) = some ms') :
    (let (l₁, root) := m.fixRootSteps id s root
     let ms₁ := l₁.getLastD m
     let l₂ := if id.isRoot = false ∧ s ≠ root then [ms₁.insert root s] else []
     let ms₂ := l₂.getLastD ms₁
     let l₃ := if s ≠ root then ms₂.reattachSteps s root else []
     m :: (l₁ ++ l₂ ++ l₃)).getLastD m = ms' := by
  cases hf : m.fixRoot id s root with
  | none => rw [hf] at h; cases h
  | some mr =>
    obtain ⟨m1, root1⟩ := mr
    rw [hf] at h
    dsimp only at h ⊢
    obtain ⟨e1, e2⟩ := fixRootSteps_last hf
    rw [List.getLastD_cons, getLastD_append, getLastD_append, e1, e2]
    have e3 : (if id.isRoot = false ∧ s ≠ root1 then [m1.insert root1 s] else []).getLastD m1 =
        if id.isRoot = false ∧ s ≠ root1 then m1.insert root1 s else m1 := by
      split <;> rfl
    rw [e3]
    split at h
    · rename_i hs
      rw [if_pos hs]
      exact reattachSteps_last h
    · rename_i hs
      rw [if_neg hs]
      injection h

theorem attachSteps_last {ms ms' : MemStore} {id : SpanID} {s : Addr} (h : ms.attach id s = some ms') :
    (ms.attachSteps id s).getLastD ms = ms' := by
  unfold MemStore.attach at h
  unfold MemStore.attachSteps
  cases ht : ms.trace.get id.trace with
  | none =>
    rw [ht] at h
    have := attachSteps_tail h
    rw [List.getLastD_cons] at this ⊢
    exact this
  | some r =>
    rw [ht] at h
    exact attachSteps_tail h

theorem collectSteps_last {ms ms' : MemStore} {id : SpanID} {as : List Annotation} (h : ms.collect id as = some ms') :
    (ms.collectSteps id as).getLastD ms = ms' := by
  unfold MemStore.collect at h
  unfold MemStore.collectSteps
  dsimp only at h ⊢
  split at h
  · rename_i s hs
    rw [hs]
    injection h with h
  · rename_i hs
    rw [hs]
    dsimp only
    rw [List.getLastD_cons]
    exact attachSteps_last h

theorem opSteps_last {ms ms' : MemStore} {op : StoreOp} (h : ms.step op = some ms') : (ms.opSteps op).getLastD ms = ms' := by
  cases op with
  | collect id as => exact collectSteps_last h
  | delete ids =>
    injection h with h

/-- The last state that the calls make is the one that `run` gives. -/
theorem moments_last {ms ms' : MemStore} {ops : List StoreOp} (h : ms.run ops = some ms') : (ms.moments ops).getLastD ms = ms' := by
  induction ops generalizing ms with
  | nil => injection h
  | cons op ops ih =>
    simp only [MemStore.run] at h
    split at h
    · cases h
    · rename_i m hm
      rw [MemStore.moments, getLastD_append, opSteps_last hm, ih h]

/-! ## In the middle of a call -/

/-- A state of the heap in the middle of a call: only the slices `Sub` of the nodes `N` differ from those of `h₀`, and they have nodes of `N`
that may be there. -/
structure Mid (h₀ : Addr → Node) (N : Addr → Prop) (E : Addr → Addr → Prop) (h : Addr → Node) : Prop where
  other : ∀ a, ¬ N a → h a = h₀ a
  id_ : ∀ a, (h a).id = (h₀ a).id
  anns : ∀ a, (h a).anns = (h₀ a).anns
  sub : ∀ a, N a → ∀ c ∈ (h a).sub, N c ∧ E a c

theorem Mid.appendSub {h₀ : Addr → Node} {N : Addr → Prop} {E : Addr → Addr → Prop} {ms : MemStore} (M : Mid h₀ N E ms.heap) {p : Addr}
    {cs : List Addr} (hp : N p) (hcs : ∀ c ∈ cs, N c ∧ E p c) : Mid h₀ N E (ms.appendSub p cs).heap := by
  have e : ∀ a, (ms.appendSub p cs).heap a = if a = p then { ms.heap p with sub := (ms.heap p).sub ++ cs } else ms.heap a := fun _ => rfl
  constructor
  · intro a ha
    rw [e, if_neg (by rintro rfl; exact ha hp)]
    exact M.other a ha
  · intro a
    rw [e]
    split
    · rename_i h; rw [h]; exact M.id_ p
    · exact M.id_ a
  · intro a
    rw [e]
    split
    · rename_i h; rw [h]; exact M.anns p
    · exact M.anns a
  · intro a ha c hc
    rw [e] at hc
    split at hc
    · rename_i h
      subst h
      rcases List.mem_append.1 hc with hc | hc
      · exact M.sub a ha c hc
      · exact hcs c hc
    · exact M.sub a ha c hc

theorem Mid.setSub {h₀ : Addr → Node} {N : Addr → Prop} {E : Addr → Addr → Prop} {ms : MemStore} (M : Mid h₀ N E ms.heap) {p : Addr}
    {cs : List Addr} (hp : N p) (hcs : ∀ c ∈ cs, N c ∧ E p c) : Mid h₀ N E (ms.setSub p cs).heap := by
  have e : ∀ a, (ms.setSub p cs).heap a = if a = p then { ms.heap p with sub := cs } else ms.heap a := fun _ => rfl
  constructor
  · intro a ha
    rw [e, if_neg (by rintro rfl; exact ha hp)]
    exact M.other a ha
  · intro a
    rw [e]
    split
    · rename_i h; rw [h]; exact M.id_ p
    · exact M.id_ a
  · intro a
    rw [e]
    split
    · rename_i h; rw [h]; exact M.anns p
    · exact M.anns a
  · intro a ha c hc
    rw [e] at hc
    split at hc
    · rename_i h
      subst h
      exact hcs c hc
    · exact M.sub a ha c hc

/-- All states of a list, and what does not change in them. -/
def Mids (h₀ : Addr → Node) (N : Addr → Prop) (E : Addr → Addr → Prop) (sp : AMap ID (AMap ID Addr)) (l : List MemStore) : Prop :=
  ∀ m ∈ l, Mid h₀ N E m.heap ∧ m.span = sp

theorem Mids.append {h₀ : Addr → Node} {N : Addr → Prop} {E : Addr → Addr → Prop} {sp : AMap ID (AMap ID Addr)} {l l' : List MemStore}
    (h : Mids h₀ N E sp l) (h' : Mids h₀ N E sp l') : Mids h₀ N E sp (l ++ l') := by
  intro m hm
  rcases List.mem_append.1 hm with hm | hm
  · exact h m hm
  · exact h' m hm

theorem Mids.last {h₀ : Addr → Node} {N : Addr → Prop} {E : Addr → Addr → Prop} {sp : AMap ID (AMap ID Addr)} {ms : MemStore}
    {l : List MemStore} (h : Mids h₀ N E sp l) (h0 : Mid h₀ N E ms.heap ∧ ms.span = sp) :
    Mid h₀ N E (l.getLastD ms).heap ∧ (l.getLastD ms).span = sp := by
  induction l generalizing ms with
  | nil => exact h0
  | cons x l ih =>
    rw [List.getLastD_cons]
    exact ih (fun m hm => h m (List.mem_cons_of_mem _ hm)) (h x (List.mem_cons_self ..))

theorem Mid.appendEach {h₀ : Addr → Node} {N : Addr → Prop} {E : Addr → Addr → Prop} {p : Addr} (hp : N p) : ∀ {cs : List Addr} {ms : MemStore},
    Mid h₀ N E ms.heap → (∀ c ∈ cs, N c ∧ E p c) → Mids h₀ N E ms.span (ms.appendEach p cs)
  | [], _, _, _ => by intro m hm; cases hm
  | c :: cs, ms, M, hcs => by
    have M1 := M.appendSub (cs := [c]) hp (fun x hx => by rw [List.mem_singleton.1 hx]; exact hcs c (List.mem_cons_self ..))
    intro m hm
    rcases List.mem_cons.1 hm with rfl | hm
    · exact ⟨M1, rfl⟩
    · exact Mid.appendEach hp M1 (fun x hx => hcs x (List.mem_cons_of_mem _ hx)) m hm

/-- What stays the same during the call that collects a new span of `t`: the heap `h₀` and the maps after the span has been registered, and
the map `sm` of the spans that were there before. -/
structure Call (t : ID) (h₀ : Addr → Node) (sp : AMap ID (AMap ID Addr)) (sm sm' : AMap ID Addr) : Prop where
  get : sp.get t = some sm'
  id_ : ∀ s a, sm'.get s = some a → (h₀ a).id.trace = t ∧ (h₀ a).id.span = s
  old : ∀ s, sm'.get s = none → sm.get s = none

/-- A node of the trace. -/
abbrev InMap (sm : AMap ID Addr) (a : Addr) : Prop := ∃ s, sm.get s = some a

/-- The second node is below its parent, or its parent had not been collected. -/
abbrev Fits (h₀ : Addr → Node) (sm : AMap ID Addr) (a c : Addr) : Prop :=
  (h₀ c).id.parent = (h₀ a).id.span ∨ sm.get (h₀ c).id.parent = none

theorem Call.insert {t : ID} {h₀ : Addr → Node} {sp : AMap ID (AMap ID Addr)} {sm sm' : AMap ID Addr} (K : Call t h₀ sp sm sm') {ms : MemStore}
    (M : Mid h₀ (InMap sm') (Fits h₀ sm) ms.heap) (hs : ms.span = sp) {root x : Addr} (hr : InMap sm' root) (hx : InMap sm' x) :
    Mid h₀ (InMap sm') (Fits h₀ sm) (ms.insert root x).heap ∧ (ms.insert root x).span = sp := by
  obtain ⟨s, hs'⟩ := hx
  have ht : (ms.heap x).id.trace = t := by rw [M.id_, (K.id_ s x hs').1]
  have hg : ms.spanGet t (ms.heap x).id.parent = sm'.get (h₀ x).id.parent := by
    simp only [MemStore.spanGet, hs, K.get, M.id_]
  unfold MemStore.insert
  rw [ht, hg]
  cases hp : sm'.get (h₀ x).id.parent with
  | some p =>
    refine ⟨M.appendSub ⟨_, hp⟩ ?_, hs⟩
    intro c hc
    rw [List.mem_singleton.1 hc]
    exact ⟨⟨s, hs'⟩, Or.inl (K.id_ _ _ hp).2.symm⟩
  | none =>
    refine ⟨M.appendSub hr ?_, hs⟩
    intro c hc
    rw [List.mem_singleton.1 hc]
    exact ⟨⟨s, hs'⟩, Or.inr (K.old _ hp)⟩

theorem Call.reattach {t : ID} {h₀ : Addr → Node} {sp : AMap ID (AMap ID Addr)} {sm sm' : AMap ID Addr} (_K : Call t h₀ sp sm sm') {ms : MemStore}
    (M : Mid h₀ (InMap sm') (Fits h₀ sm) ms.heap) (hs : ms.span = sp) {dst src : Addr} (hd : InMap sm' dst) (hr : InMap sm' src) :
    Mids h₀ (InMap sm') (Fits h₀ sm) sp (ms.reattachSteps dst src) := by
  unfold MemStore.reattachSteps
  have M1 : Mids h₀ (InMap sm') (Fits h₀ sm) sp
      (ms.appendEach dst ((ms.heap src).sub.filter fun c => decide ((ms.heap c).id.parent = (ms.heap dst).id.span))) := by
    rw [← hs]
    apply M.appendEach hd
    intro c hc
    rw [List.mem_filter, decide_eq_true_eq, M.id_, M.id_] at hc
    exact ⟨(M.sub src hr c hc.1).1, Or.inl hc.2⟩
  refine M1.append ?_
  intro m hm
  rw [List.mem_singleton.1 hm]
  obtain ⟨M2, e⟩ := M1.last ⟨M, hs⟩
  refine ⟨M2.setSub hr ?_, e⟩
  intro c hc
  exact M.sub src hr c (List.mem_filter.1 hc).1

theorem Call.moveTemp {t : ID} {h₀ : Addr → Node} {sp : AMap ID (AMap ID Addr)} {sm sm' : AMap ID Addr} (_K : Call t h₀ sp sm sm') {ms : MemStore}
    (M : Mid h₀ (InMap sm') (Fits h₀ sm) ms.heap) (hs : ms.span = sp) {root old : Addr} (hd : InMap sm' root) (hr : InMap sm' old) :
    Mids h₀ (InMap sm') (Fits h₀ sm) sp (ms.moveTempSteps root old) := by
  unfold MemStore.moveTempSteps
  have M1 : Mids h₀ (InMap sm') (Fits h₀ sm) sp
      (ms.appendEach root ((ms.heap old).sub.filter fun c => decide ((ms.heap c).id.parent ≠ (ms.heap old).id.span))) := by
    rw [← hs]
    apply M.appendEach hd
    intro c hc
    rw [List.mem_filter, decide_eq_true_eq, M.id_, M.id_] at hc
    obtain ⟨h1, h2⟩ := M.sub old hr c hc.1
    refine ⟨h1, ?_⟩
    rcases h2 with h2 | h2
    · exact absurd h2 hc.2
    · exact Or.inr h2
  refine M1.append ?_
  intro m hm
  rw [List.mem_singleton.1 hm]
  obtain ⟨M2, e⟩ := M1.last ⟨M, hs⟩
  refine ⟨M2.setSub hr ?_, e⟩
  intro c hc
  exact M.sub old hr c (List.mem_filter.1 hc).1

theorem Call.fixRoot {t : ID} {h₀ : Addr → Node} {sp : AMap ID (AMap ID Addr)} {sm sm' : AMap ID Addr} (K : Call t h₀ sp sm sm') {ms : MemStore}
    (M : Mid h₀ (InMap sm') (Fits h₀ sm) ms.heap) (hs : ms.span = sp) {id : SpanID} {s root : Addr} (hd : InMap sm' s) (hr : InMap sm' root) :
    Mids h₀ (InMap sm') (Fits h₀ sm) sp (ms.fixRootSteps id s root).1 ∧ InMap sm' (ms.fixRootSteps id s root).2 := by
  unfold MemStore.fixRootSteps
  split
  · refine ⟨?_, hd⟩
    dsimp only
    generalize hm : ({ ms with trace := ms.trace.set id.trace s } : MemStore) = m
    have hM : Mid h₀ (InMap sm') (Fits h₀ sm) m.heap ∧ m.span = sp := by subst hm; exact ⟨M, hs⟩
    have M1 := K.reattach hM.1 hM.2 hd hr
    obtain ⟨L1, L2⟩ := M1.last hM
    have M2 := K.insert L1 L2 hd hr
    have M3 := K.moveTemp M2.1 M2.2 hd hr
    intro x hx
    rcases List.mem_cons.1 hx with rfl | hx
    · exact hM
    · refine ((M1.append ?_).append M3) x hx
      intro y hy
      rw [List.mem_singleton.1 hy]
      exact M2
  · exact ⟨(by intro m hm; cases hm), hr⟩

theorem Call.attach {t : ID} {h₀ : Addr → Node} {sp : AMap ID (AMap ID Addr)} {sm sm' : AMap ID Addr} (K : Call t h₀ sp sm sm') {ms : MemStore}
    (M : Mid h₀ (InMap sm') (Fits h₀ sm) ms.heap) (hs : ms.span = sp) {id : SpanID} {s : Addr} (hd : InMap sm' s)
    (hr : ∀ r, ms.trace.get id.trace = some r → InMap sm' r) : Mids h₀ (InMap sm') (Fits h₀ sm) sp (ms.attachSteps id s) := by
  have tail : ∀ {m : MemStore} {root : Addr}, (Mid h₀ (InMap sm') (Fits h₀ sm) m.heap ∧ m.span = sp) → InMap sm' root →
      Mids h₀ (InMap sm') (Fits h₀ sm) sp
        (let (l₁, root) := m.fixRootSteps id s root
         let ms₁ := l₁.getLastD m
         let l₂ := if id.isRoot = false ∧ s ≠ root then [ms₁.insert root s] else []
         let ms₂ := l₂.getLastD ms₁
         let l₃ := if s ≠ root then ms₂.reattachSteps s root else []
         m :: (l₁ ++ l₂ ++ l₃)) := by
    intro m root hM hroot
    obtain ⟨M1, hroot1⟩ := K.fixRoot (id := id) hM.1 hM.2 hd hroot
    generalize m.fixRootSteps id s root = fr at M1 hroot1
    obtain ⟨l1, root1⟩ := fr
    dsimp only at M1 hroot1 ⊢
    obtain ⟨L1, L2⟩ := M1.last hM
    have M2 : Mids h₀ (InMap sm') (Fits h₀ sm) sp (if id.isRoot = false ∧ s ≠ root1 then [(l1.getLastD m).insert root1 s] else []) := by
      split
      · intro x hx
        rw [List.mem_singleton.1 hx]
        exact K.insert L1 L2 hroot1 hd
      · intro x hx; cases hx
    obtain ⟨L3, L4⟩ := M2.last ⟨L1, L2⟩
    intro x hx
    rcases List.mem_cons.1 hx with rfl | hx
    · exact hM
    · refine ((M1.append M2).append ?_) x hx
      split
      · exact K.reattach L3 L4 hd hroot1
      · intro x hx; cases hx
  unfold MemStore.attachSteps
  cases ht : ms.trace.get id.trace with
  | none => exact tail (m := { ms with trace := ms.trace.set id.trace s }) ⟨M, hs⟩ hd
  | some r => exact tail ⟨M, hs⟩ (hr r ht)

/-- What holds of the nodes of a trace between calls. -/
theorem old_nodes {ms : MemStore} {A : AStore} {f : ID → List Entry} (S : Sim ms A) (H : HSim A f) (t : ID) :
    (∀ s a, ((ms.span.get t).getD []).get s = some a → a < ms.next ∧ (ms.heap a).id.trace = t ∧ (ms.heap a).id.span = s ∧
      ∀ c ∈ (ms.heap a).sub, InMap ((ms.span.get t).getD []) c ∧
        ((ms.heap c).id.parent = s ∨ ((ms.span.get t).getD []).get (ms.heap c).id.parent = none)) ∧
    ∀ r, ms.trace.get t = some r → InMap ((ms.span.get t).getD []) r := by
  have St := S t
  have Ht := H t
  cases hA : A t with
  | none =>
    rw [hA] at St
    rw [St.1, St.2]
    exact ⟨fun s a h => (by cases h), fun r h => (by cases h)⟩
  | some T =>
    rw [hA] at St Ht
    obtain ⟨sm, ra, h1, h2, h3, R⟩ := St
    rw [h1, h2]
    refine ⟨?_, fun r h => ⟨T.root, by injection h with h; rw [← h]; exact h3⟩⟩
    intro s a ha
    simp only [Option.getD_some] at ha
    obtain ⟨p, -, hid⟩ := R.id s a ha
    refine ⟨R.lt s a ha, by rw [hid], by rw [hid], ?_⟩
    intro c hc
    rw [R.sub s a ha, List.mem_map] at hc
    obtain ⟨c', hc', rfl⟩ := hc
    have hg := R.get_of_dom (R.closed s c' hc')
    obtain ⟨q, hq, hid'⟩ := R.id _ _ hg
    refine ⟨⟨c', hg⟩, ?_⟩
    rw [hid']
    rcases Ht.2.2.2.1.place s c' hc' with h | ⟨-, q', h, h'⟩
    · rw [hq] at h
      injection h with h
      exact Or.inl h
    · rw [hq] at h
      injection h with h
      subst h
      right
      have := R.dom q
      rw [h'] at this
      simpa using this.symm

theorem new_call {ms : MemStore} {A : AStore} {f : ID → List Entry} (S : Sim ms A) (H : HSim A f) {id : SpanID} {as : List Annotation}
    (hn : ((ms.span.get id.trace).getD []).get id.span = none) :
    Call id.trace (heapUpd ms.heap ms.next { id := id, anns := as, sub := [] })
      (ms.span.set id.trace (((ms.span.get id.trace).getD []).set id.span ms.next)) ((ms.span.get id.trace).getD [])
      (((ms.span.get id.trace).getD []).set id.span ms.next) ∧
    Mids (heapUpd ms.heap ms.next { id := id, anns := as, sub := [] }) (InMap (((ms.span.get id.trace).getD []).set id.span ms.next))
      (Fits (heapUpd ms.heap ms.next { id := id, anns := as, sub := [] }) ((ms.span.get id.trace).getD []))
      (ms.span.set id.trace (((ms.span.get id.trace).getD []).set id.span ms.next)) (ms.collectSteps id as) := by
  obtain ⟨O, O'⟩ := old_nodes S H id.trace
  unfold MemStore.collectSteps
  dsimp only
  rw [hn]
  dsimp only
  generalize hsm : (ms.span.get id.trace).getD [] = sm at *
  have up : ∀ a, a < ms.next → heapUpd ms.heap ms.next { id := id, anns := as, sub := [] } a = ms.heap a := by
    intro a ha
    simp [heapUpd, Nat.ne_of_lt ha]
  have new : heapUpd ms.heap ms.next { id := id, anns := as, sub := [] } ms.next = { id := id, anns := as, sub := [] } := by simp [heapUpd]
  have ext : ∀ {a}, InMap sm a → InMap (sm.set id.span ms.next) a := by
    rintro a ⟨s, hs⟩
    refine ⟨s, ?_⟩
    rw [AMap.get_set_ne _ _ (by rintro rfl; rw [hn] at hs; cases hs)]
    exact hs
  have K : Call id.trace (heapUpd ms.heap ms.next { id := id, anns := as, sub := [] })
      (ms.span.set id.trace (sm.set id.span ms.next)) sm (sm.set id.span ms.next) := by
    refine ⟨AMap.get_set_self .., ?_, ?_⟩
    · intro s a ha
      rw [AMap.get_set] at ha
      split at ha
      · rename_i e
        injection ha with ha
        subst ha e
        rw [new]
        exact ⟨rfl, rfl⟩
      · obtain ⟨h1, h2, h3, -⟩ := O s a ha
        rw [up a h1]
        exact ⟨h2, h3⟩
    · intro s hs
      rw [AMap.get_set] at hs
      split at hs
      · cases hs
      · exact hs
  refine ⟨K, ?_⟩
  have M0 : Mid (heapUpd ms.heap ms.next { id := id, anns := as, sub := [] }) (InMap (sm.set id.span ms.next))
      (Fits (heapUpd ms.heap ms.next { id := id, anns := as, sub := [] }) sm)
      (heapUpd ms.heap ms.next { id := id, anns := as, sub := [] }) := by
    refine ⟨fun _ _ => rfl, fun _ => rfl, fun _ => rfl, ?_⟩
    rintro a ⟨s, hs⟩ c hc
    rw [AMap.get_set] at hs
    split at hs
    · injection hs with hs
      subst hs
      rw [new] at hc
      cases hc
    · obtain ⟨h1, h2, h3, h4⟩ := O s a hs
      rw [up a h1] at hc
      obtain ⟨⟨s', hs'⟩, h5⟩ := h4 c hc
      refine ⟨ext ⟨s', hs'⟩, ?_⟩
      unfold Fits
      rw [up a h1, up c (O s' c hs').1, h3]
      exact h5
  intro m hm
  rcases List.mem_cons.1 hm with rfl | hm
  · exact ⟨M0, rfl⟩
  · exact K.attach (ms := { ms with
      heap := heapUpd ms.heap ms.next { id := id, anns := as, sub := [] }
      next := ms.next + 1
      span := ms.span.set id.trace (sm.set id.span ms.next) }) M0 rfl ⟨id.span, AMap.get_set_self ..⟩
      (fun r hr => ext (O' r hr)) m hm

/-! ## What a reader can see of a state -/

/-- What holds of the nodes of the trace `t` in every state, also in the middle of a call: `L` is what has been collected, `D` what had been
collected when the trace was fetched. -/
structure Weak (t : ID) (D L : List Entry) (sm : AMap ID Addr) (m : MemStore) : Prop where
  get : m.span.get t = some sm
  id_ : ∀ s a, sm.get s = some a → ∃ p, declaredParent L s = some p ∧ (m.heap a).id = ⟨t, s, p⟩
  anns : ∀ s a, sm.get s = some a → (m.heap a).anns = annotationsOf L s
  sub : ∀ s a, sm.get s = some a → ∀ c ∈ (m.heap a).sub, ∃ s' p, sm.get s' = some c ∧ declaredParent L s' = some p ∧
    (p = s ∨ ¬ Collected D p)

theorem weak_of_stands {t : ID} {ms : MemStore} {A : AStore} {sm : AMap ID Addr} {T : ATrace} (S : Stands t ms A sm T) {D L : List Entry}
    (H : HRep (some T) L) (hD : ∀ s, Collected D s → Collected L s) : Weak t D L sm ms := by
  have R := S.rep
  refine ⟨S.sm_, ?_, ?_, ?_⟩
  · intro s a ha
    obtain ⟨p, hp, hid⟩ := R.id s a ha
    exact ⟨p, by rw [← H.2.1, hp], hid⟩
  · intro s a ha
    rw [R.anns s a ha, H.2.2.1]
  · intro s a ha c hc
    rw [R.sub s a ha, List.mem_map] at hc
    obtain ⟨c', hc', rfl⟩ := hc
    have hg := R.get_of_dom (R.closed s c' hc')
    obtain ⟨q, hq, -⟩ := R.id _ _ hg
    refine ⟨c', q, hg, by rw [← H.2.1, hq], ?_⟩
    rcases H.2.2.2.1.place s c' hc' with h | ⟨-, q', h, h'⟩
    · rw [hq] at h
      injection h with h
      exact Or.inl h
    · rw [hq] at h
      injection h with h
      subst h
      right
      intro hd
      have := hD q hd
      rw [H.2.1, ← not_collected_iff] at h'
      exact h' this

theorem delete_keeps {t : ID} : ∀ (ids : List ID) (ms : MemStore), t ∉ ids →
    (ms.delete ids).heap = ms.heap ∧ (ms.delete ids).span.get t = ms.span.get t
  | [], _, _ => ⟨rfl, rfl⟩
  | i :: ids, ms, h => by
    obtain ⟨h1, h2⟩ := delete_keeps ids { ms with trace := ms.trace.del i, span := ms.span.del i } (fun hi => h (List.mem_cons_of_mem _ hi))
    refine ⟨h1, h2.trans ?_⟩
    exact AMap.get_del_ne _ (by rintro rfl; exact h (List.mem_cons_self ..))

/-- The states of a call for another trace. -/
theorem op_weak_other {t : ID} {D L : List Entry} {sm : AMap ID Addr} {ms : MemStore} {A : AStore} {f : ID → List Entry} (S : Sim ms A)
    (H : HSim A f) (W : Weak t D L sm ms) (hlt : ∀ s a, sm.get s = some a → a < ms.next) {op : StoreOp}
    (hk : ∀ ids, op = .delete ids → t ∉ ids) (ho : ∀ id as, op = .collect id as → id.trace ≠ t) :
    ∀ m ∈ ms.opSteps op, m.span.get t = some sm ∧ ∀ s a, sm.get s = some a → m.heap a = ms.heap a := by
  intro m hm
  cases op with
  | delete ids =>
    rw [MemStore.opSteps, List.mem_singleton] at hm
    subst hm
    obtain ⟨h1, h2⟩ := delete_keeps ids ms (hk ids rfl)
    exact ⟨by rw [h2]; exact W.get, fun _ _ _ => by rw [h1]⟩
  | collect id as =>
    have hne := ho id as rfl
    cases hn : ((ms.span.get id.trace).getD []).get id.span with
    | some s =>
      have hm' : m = { ms with heap := heapUpd ms.heap s { ms.heap s with anns := (ms.heap s).anns ++ as } } := by
        simp only [MemStore.opSteps, MemStore.collectSteps, hn, List.mem_singleton] at hm
        exact hm
      subst hm'
      refine ⟨W.get, ?_⟩
      intro s' a ha
      obtain ⟨p, -, hid⟩ := W.id_ s' a ha
      have := ((old_nodes S H id.trace).1 id.span s hn).2.1
      have hne' : a ≠ s := by
        rintro rfl
        rw [hid] at this
        exact hne this.symm
      simp [heapUpd, hne']
    | none =>
      obtain ⟨K, M⟩ := new_call (as := as) S H hn
      obtain ⟨M1, M2⟩ := M m hm
      refine ⟨?_, ?_⟩
      · rw [M2, AMap.get_set_ne _ _ hne]
        exact W.get
      · intro s a ha
        obtain ⟨p, -, hid⟩ := W.id_ s a ha
        have hup : heapUpd ms.heap ms.next { id := id, anns := as, sub := [] } a = ms.heap a := by
          simp [heapUpd, Nat.ne_of_lt (hlt s a ha)]
        rw [M1.other a, hup]
        rintro ⟨s', hs'⟩
        have := (K.id_ s' a hs').1
        rw [hup, hid] at this
        exact hne this.symm

theorem declaredParent_last (L : List Entry) (e : Entry) (s : ID) :
    declaredParent (L ++ [e]) s = (declaredParent L s).or (if e.1.span = s then some e.1.parent else none) := by
  induction L with
  | nil => simp [declaredParent]
  | cons x L ih =>
    rw [List.cons_append, declaredParent, declaredParent]
    split
    · rfl
    · exact ih

theorem H_par {T : ATrace} {L : List Entry} (H : HRep (some T) L) {s : ID} : T.par s = declaredParent L s := H.2.1 s

theorem annotationsOf_uncollected {L : List Entry} {s : ID} (h : declaredParent L s = none) : annotationsOf L s = [] := by
  induction L with
  | nil => rfl
  | cons e L ih =>
    rw [declaredParent] at h
    split at h
    · cases h
    · rename_i hs
      rw [annotationsOf, if_neg hs, ih h]
      rfl

/-- The states of a call that collects something for the trace. -/
theorem collect_weak {t : ID} {D L : List Entry} {sm : AMap ID Addr} {ms : MemStore} {A : AStore} {f : ID → List Entry} {T : ATrace}
    (S : Stands t ms A sm T) (H : HSim A f) (hL : f t = L) (hD : ∀ s, Collected D s → Collected L s) {id : SpanID} (ht : id.trace = t)
    (as : List Annotation) :
    ∃ sm', (∀ s a, sm.get s = some a → sm'.get s = some a) ∧ ∀ m ∈ ms.collectSteps id as, Weak t D (L ++ [(id, as)]) sm' m := by
  have HT : HRep (some T) L := by
    have := H t
    rw [S.at_, hL] at this
    exact this
  have W := weak_of_stands S HT hD
  have R := S.rep
  have hsp : (ms.span.get id.trace).getD [] = sm := by rw [ht, S.sm_]; rfl
  cases hn : sm.get id.span with
  | some x =>
    refine ⟨sm, fun _ _ h => h, ?_⟩
    intro m hm
    have hm' : m = { ms with heap := heapUpd ms.heap x { ms.heap x with anns := (ms.heap x).anns ++ as } } := by
      simp only [MemStore.collectSteps, hsp, hn, List.mem_singleton] at hm
      exact hm
    subst hm'
    have keep : ∀ {s p}, declaredParent L s = some p → declaredParent (L ++ [(id, as)]) s = some p := fun h => declaredParent_more _ h _
    refine ⟨W.get, ?_, ?_, ?_⟩
    · intro s a ha
      obtain ⟨p, hp, hid⟩ := W.id_ s a ha
      refine ⟨p, keep hp, ?_⟩
      simp only [heapUpd]
      split
      · rename_i e; subst e; exact hid
      · exact hid
    · intro s a ha
      rw [annotationsOf_more]
      simp only [heapUpd, annotationsOf, List.append_nil]
      split
      · rename_i e
        subst e
        have hs : id.span = s := by
          obtain ⟨p, -, h1⟩ := W.id_ s a ha
          obtain ⟨q, -, h2⟩ := W.id_ _ _ hn
          rw [h1] at h2
          injection h2 with _ h2
          exact h2.symm
        rw [if_pos hs]
        show (ms.heap a).anns ++ as = _
        rw [W.anns s a ha]
      · rename_i e
        have hs : id.span ≠ s := by
          rintro rfl
          rw [hn] at ha
          injection ha with ha
          exact e ha.symm
        rw [if_neg hs, List.append_nil]
        exact W.anns s a ha
    · intro s a ha c hc
      have hc' : c ∈ (ms.heap a).sub := by
        simp only [heapUpd] at hc
        split at hc
        · rename_i e; subst e; exact hc
        · exact hc
      obtain ⟨s', p, h1, h2, h3⟩ := W.sub s a ha c hc'
      exact ⟨s', p, h1, keep h2, h3⟩
  | none =>
    have hn' : ((ms.span.get id.trace).getD []).get id.span = none := by rw [hsp]; exact hn
    obtain ⟨K, M⟩ := new_call (as := as) S.sim H hn'
    rw [hsp] at K M
    have hnp : declaredParent L id.span = none := by
      have := R.dom id.span
      rw [hn, H_par HT] at this
      simpa using this
    have hext : ∀ s a, sm.get s = some a → (sm.set id.span ms.next).get s = some a := by
      intro s a ha
      rw [AMap.get_set_ne _ _ (by rintro rfl; rw [hn] at ha; cases ha)]
      exact ha
    have keep : ∀ {s p}, declaredParent L s = some p → declaredParent (L ++ [(id, as)]) s = some p := fun h => declaredParent_more _ h _
    have up : ∀ a, a < ms.next → heapUpd ms.heap ms.next { id := id, anns := as, sub := [] } a = ms.heap a := by
      intro a ha
      simp [heapUpd, Nat.ne_of_lt ha]
    have new : heapUpd ms.heap ms.next { id := id, anns := as, sub := [] } ms.next = { id := id, anns := as, sub := [] } := by simp [heapUpd]
    have hid0 : ∀ s a, (sm.set id.span ms.next).get s = some a → ∃ p, declaredParent (L ++ [(id, as)]) s = some p ∧
        (heapUpd ms.heap ms.next { id := id, anns := as, sub := [] } a).id = ⟨t, s, p⟩ := by
      intro s a ha
      rw [AMap.get_set] at ha
      split at ha
      · rename_i e
        injection ha with ha
        subst ha e
        refine ⟨id.parent, ?_, ?_⟩
        · rw [declaredParent_last, hnp]
          simp
        · rw [new, ← ht]
      · obtain ⟨p, hp, hid⟩ := W.id_ s a ha
        exact ⟨p, keep hp, by rw [up a (R.lt s a ha)]; exact hid⟩
    refine ⟨sm.set id.span ms.next, hext, ?_⟩
    intro m hm
    obtain ⟨M1, M2⟩ := M m hm
    refine ⟨?_, ?_, ?_, ?_⟩
    · rw [M2, ht]
      exact AMap.get_set_self ..
    · intro s a ha
      rw [M1.id_]
      exact hid0 s a ha
    · intro s a ha
      rw [M1.anns, annotationsOf_more]
      simp only [annotationsOf, List.append_nil]
      rw [AMap.get_set] at ha
      split at ha
      · rename_i e
        injection ha with ha
        subst ha e
        rw [new, if_pos rfl]
        have : annotationsOf L id.span = [] := annotationsOf_uncollected hnp
        rw [this]
        rfl
      · rename_i e
        rw [if_neg e, List.append_nil, up a (R.lt s a ha)]
        exact W.anns s a ha
    · intro s a ha c hc
      obtain ⟨⟨s', hs'⟩, hf⟩ := M1.sub a ⟨s, ha⟩ c hc
      obtain ⟨p, hp, hid⟩ := hid0 s' c hs'
      refine ⟨s', p, hs', hp, ?_⟩
      obtain ⟨q, -, hid2⟩ := hid0 s a ha
      unfold Fits at hf
      rw [hid, hid2] at hf
      rcases hf with hf | hf
      · exact Or.inl hf
      · right
        intro hd
        have := hD p hd
        rw [collected_iff, ← H_par HT, R.dom, hf] at this
        cases this

/-! ## All states that a reader can see -/

/-- Successive states in which the trace grows. -/
inductive Trail (t : ID) (D M : List Entry) : List Entry → AMap ID Addr → List MemStore → Prop
  | nil {L : List Entry} {sm : AMap ID Addr} : Trail t D M L sm []
  | cons {L L' : List Entry} {sm sm' : AMap ID Addr} {m : MemStore} {l : List MemStore} : L <+: L' → L' <+: M →
      (∀ s a, sm.get s = some a → sm'.get s = some a) → Weak t D L' sm' m → Trail t D M L' sm' l → Trail t D M L sm (m :: l)

theorem Trail.weaken {t : ID} {D M L L' : List Entry} {sm sm' : AMap ID Addr} {l : List MemStore} (h : Trail t D M L' sm' l) (hL : L <+: L')
    (hs : ∀ s a, sm.get s = some a → sm'.get s = some a) : Trail t D M L sm l := by
  cases h with
  | nil => exact .nil
  | cons h1 h2 h3 h4 h5 => exact .cons (hL.trans h1) h2 (fun s a h => h3 s a (hs s a h)) h4 h5

theorem Trail.suffix {t : ID} {D M L : List Entry} {sm : AMap ID Addr} {l l' : List MemStore} (h : Trail t D M L sm l) (hs : l' <:+ l) :
    Trail t D M L sm l' := by
  induction h with
  | nil => rw [List.suffix_nil.1 hs]; exact .nil
  | @cons L L1 sm sm1 m l h1 h2 h3 h4 h5 ih =>
    rcases List.suffix_cons_iff.1 hs with rfl | hs
    · exact .cons h1 h2 h3 h4 h5
    · exact (ih hs).weaken h1 h3

theorem trail_append {t : ID} {D M L L' : List Entry} {sm sm' : AMap ID Addr} {l l' : List MemStore} (hL : L <+: L') (hM : L' <+: M)
    (hs : ∀ s a, sm.get s = some a → sm'.get s = some a) (hw : ∀ m ∈ l, Weak t D L' sm' m) (h : Trail t D M L' sm' l') :
    Trail t D M L sm (l ++ l') := by
  induction l generalizing L sm with
  | nil => exact h.weaken hL hs
  | cons m l ih =>
    exact .cons hL hM hs (hw m (List.mem_cons_self ..))
      (ih (List.prefix_refl _) (fun _ _ h => h) (fun x hx => hw x (List.mem_cons_of_mem _ hx)))

theorem live_cons {t : ID} {op : StoreOp} {ops : List StoreOp} (hk : Keeps t (op :: ops)) : live t (op :: ops) = live t [op] ++ live t ops :=
  live_append [op] ops (fun ids hi => hk ids (List.mem_cons_of_mem _ hi))

theorem opSteps_mem {ms ms1 : MemStore} {op : StoreOp} (hstep : ms.step op = some ms1) : ms1 ∈ ms.opSteps op := by
  have hl := opSteps_last hstep
  have hne : ms.opSteps op ≠ [] := by
    cases op with
    | collect id as =>
      simp only [MemStore.opSteps, MemStore.collectSteps]
      split <;> simp
    | delete ids => simp [MemStore.opSteps]
  generalize ms.opSteps op = l at hl hne
  rw [← hl]
  cases l with
  | nil => exact absurd rfl hne
  | cons x l =>
    rw [List.getLastD_cons]
    clear hl hne
    induction l generalizing x with
    | nil => simp
    | cons y l ih =>
      rw [List.getLastD_cons]
      exact List.mem_cons_of_mem _ (ih y)

theorem moments_trail {t : ID} {D M : List Entry} : ∀ (ops : List StoreOp) {ms : MemStore} {A : AStore} {sm : AMap ID Addr} {T : ATrace}
    {f : ID → List Entry}, Stands t ms A sm T → HSim A f → (∀ s, Collected D s → Collected (f t) s) → Keeps t ops →
    f t ++ live t ops <+: M → Trail t D M (f t) sm (ms.moments ops)
  | [], ms, A, sm, T, f, S, H, hD, hk, hM => .nil
  | op :: ops, ms, A, sm, T, f, S, H, hD, hk, hM => by
    obtain ⟨ms1, h1, S1⟩ := sim_run S.sim [op]
    have hstep : ms.step op = some ms1 := by
      simp only [MemStore.run] at h1
      split at h1
      · cases h1
      · rename_i m hm
        injection h1 with h1
        rw [hm, h1]
    have hk1 : Keeps t [op] := fun ids hi => hk ids (by simp at hi; simp [hi])
    have hk' : Keeps t ops := fun ids hi => hk ids (List.mem_cons_of_mem _ hi)
    obtain ⟨sm1, S', -⟩ := S.run h1 hk1
    have H' := H.step op
    have HT : HRep (some T) (f t) := by
      have := H t
      rw [S.at_] at this
      exact this
    have W := weak_of_stands S HT hD
    rw [live_cons hk, ← List.append_assoc] at hM
    have hf : liveStep t (f t) op = f t ++ live t [op] := by
      cases op with
      | collect id as =>
        by_cases e : id.trace = t
        · simp [live, liveStep, e]
        · simp [live, liveStep, e]
      | delete ids =>
        have : t ∉ ids := hk1 ids (by simp)
        simp [live, liveStep, this]
    have hmem := opSteps_mem hstep
    have key : ∃ sm', (∀ s a, sm.get s = some a → sm'.get s = some a) ∧ ∀ m ∈ ms.opSteps op, Weak t D (f t ++ live t [op]) sm' m := by
      have other : (∀ id as, op = .collect id as → id.trace ≠ t) → live t [op] = [] →
          ∃ sm', (∀ s a, sm.get s = some a → sm'.get s = some a) ∧ ∀ m ∈ ms.opSteps op, Weak t D (f t ++ live t [op]) sm' m := by
        intro ho he
        refine ⟨sm, fun _ _ h => h, ?_⟩
        intro m hm
        obtain ⟨q1, q2⟩ := op_weak_other S.sim H W (fun s a ha => S.rep.lt s a ha) (fun ids e => hk1 ids (by simp [e])) ho m hm
        rw [he, List.append_nil]
        refine ⟨q1, ?_, ?_, ?_⟩
        · intro s a ha; rw [q2 s a ha]; exact W.id_ s a ha
        · intro s a ha; rw [q2 s a ha]; exact W.anns s a ha
        · intro s a ha; rw [q2 s a ha]; exact W.sub s a ha
      cases op with
      | collect id as =>
        by_cases e : id.trace = t
        · have hl : live t [StoreOp.collect id as] = [(id, as)] := by simp [live, liveStep, e]
          rw [hl]
          exact collect_weak S H rfl hD e as
        · exact other (fun id' as' h => by injection h with h; rw [← h]; exact e) (by simp [live, liveStep, e])
      | delete ids =>
        have : t ∉ ids := hk1 ids (by simp)
        exact other (fun id' as' h => by cases h) (by simp [live, liveStep])
    obtain ⟨sm', k1, k2⟩ := key
    have hsm : sm' = sm1 := by
      have := (k2 ms1 hmem).get
      rw [S'.sm_] at this
      injection this with this
      exact this.symm
    subst hsm
    rw [MemStore.moments, opSteps_last hstep]
    have rec_ := moments_trail (M := M) ops S' H' (fun s hs => by
      rw [hf]
      obtain ⟨e, he, h⟩ := hD s hs
      exact ⟨e, List.mem_append_left _ he, h⟩) hk' (by rw [hf]; exact hM)
    rw [hf] at rec_
    exact trail_append (List.prefix_append _ _) ((List.prefix_append _ _).trans hM) k1 k2 rec_

theorem walks_suffix {l l' : List MemStore} {as : List Addr} {ts : List Tree} (h : Walks l as ts l') : l' <:+ l := by
  induction h with
  | nil l => exact List.suffix_refl _
  | cons h1 h2 h3 h4 ih3 ih4 => exact ih4.trans (ih3.trans (h2.trans h1))

/-- A span as it may be shown. -/
def ShownSpan (t : ID) (L M : List Entry) (sp : Span) : Prop :=
  ∃ K, L <+: K ∧ K <+: M ∧ sp.id.trace = t ∧ declaredParent K sp.id.span = some sp.id.parent ∧ sp.annotations = annotationsOf K sp.id.span

theorem ShownSpan.weaken {t : ID} {L L' M : List Entry} {sp : Span} (h : ShownSpan t L' M sp) (hL : L <+: L') : ShownSpan t L M sp := by
  obtain ⟨K, h1, h2⟩ := h
  exact ⟨K, hL.trans h1, h2⟩

theorem walks_sound {t : ID} {D M : List Entry} {l l' : List MemStore} {as : List Addr} {ts : List Tree} (h : Walks l as ts l') :
    ∀ {L : List Entry} {sm : AMap ID Addr}, Trail t D M L sm l → (∀ a ∈ as, InMap sm a) →
      (∀ sp ∈ Tree.spansList ts, ShownSpan t L M sp) ∧ (∀ a b, (a, b) ∈ Tree.edgesList ts → b.id.parent = a.id.span ∨ ¬ Collected D b.id.parent) ∧
      ∀ tr ∈ ts, ∃ a ∈ as, ∀ s, sm.get s = some a → tr.span.id.span = s := by
  induction h with
  | nil l =>
    intro L sm _ _
    refine ⟨?_, ?_, ?_⟩
    · intro sp hsp; cases hsp
    · intro a b hab; cases hab
    · intro tr htr; cases htr
  | @cons m₁ m₂ l l₁ l₂ l₃ l₄ a as ts us h1 h2 h3 h4 ih3 ih4 =>
    intro L sm T has
    have T1 := T.suffix h1
    have T2 := T1.suffix h2
    have T3 := T2.suffix (walks_suffix h3)
    obtain ⟨s, hs⟩ := has a (List.mem_cons_self ..)
    cases T1 with
    | @cons _ L1 _ sm1 _ _ a1 a2 a3 W1 _ =>
    cases T2 with
    | @cons _ L2 _ sm2 _ _ b1 b2 b3 W2 T2' =>
    obtain ⟨p, hp, hid⟩ := W1.id_ s a (a3 s a hs)
    have T2r : Trail t D M L2 sm2 (m₂ :: l₂) := .cons (List.prefix_refl _) b2 (fun _ _ h => h) W2 T2'
    obtain ⟨s3, e3, c3⟩ := ih3 T2r (fun c hc => by
      obtain ⟨s', -, q, -⟩ := W2.sub s a (b3 s a hs) c hc
      exact ⟨s', q⟩)
    obtain ⟨s4, e4, c4⟩ := ih4 T3 (fun x hx => has x (List.mem_cons_of_mem _ hx))
    refine ⟨?_, ?_, ?_⟩
    · intro sp hsp
      rw [mem_spansList_cons, Tree.spans, List.mem_cons] at hsp
      rcases hsp with (rfl | hsp) | hsp
      · refine ⟨L1, a1, a2, ?_, ?_, ?_⟩
        · simp [hid]
        · simp [hid, hp]
        · simp only [hid]
          exact W1.anns s a (a3 s a hs)
      · exact (s3 sp hsp).weaken b1
      · exact s4 sp hsp
    · intro x y hxy
      rw [Tree.edgesList, Tree.edges, List.mem_append, List.mem_append] at hxy
      rcases hxy with (hxy | hxy) | hxy
      · obtain ⟨c, hc, e⟩ := List.mem_map.1 hxy
        injection e with e1 e2
        subst e1 e2
        obtain ⟨ca, hca, hcs⟩ := c3 c hc
        obtain ⟨s', q, g1, g2, g3⟩ := W2.sub s a (b3 s a hs) ca hca
        have hspan := hcs s' g1
        have hcm : c.span ∈ Tree.spansList ts := by
          clear ih3 ih4 h3 h4 hxy s3 e3 c3
          induction ts with
          | nil => cases hc
          | cons u ts ih =>
            rw [mem_spansList_cons]
            rcases List.mem_cons.1 hc with rfl | hc
            · left
              cases c
              rw [Tree.spans]
              exact List.mem_cons_self ..
            · exact Or.inr (ih hc)
        obtain ⟨K, ⟨K', rfl⟩, -, -, k3, -⟩ := s3 _ hcm
        rw [hspan, declaredParent_more _ g2 K'] at k3
        injection k3 with k3
        rw [← k3]
        simp only [hid]
        exact g3
      · exact e3 x y hxy
      · exact e4 x y hxy
    · intro tr htr
      rcases List.mem_cons.1 htr with rfl | htr
      · refine ⟨a, List.mem_cons_self .., ?_⟩
        intro s' hs'
        obtain ⟨p', -, hid'⟩ := W1.id_ s' a (a3 s' a hs')
        simp [Tree.span, hid']
      · obtain ⟨x, hx, h⟩ := c4 tr htr
        exact ⟨x, List.mem_cons_of_mem _ hx, h⟩

/-! ## Reading between calls is a special case -/

theorem moments_append {ms ms' : MemStore} {ops ops' : List StoreOp} (h : ms.run ops = some ms') :
    ms.moments (ops ++ ops') = ms.moments ops ++ ms'.moments ops' := by
  induction ops generalizing ms with
  | nil => injection h with h; rw [h]; rfl
  | cons op ops ih =>
    simp only [MemStore.run] at h
    split at h
    · cases h
    · rename_i m hm
      rw [List.cons_append, MemStore.moments, MemStore.moments, opSteps_last hm, ih h, List.append_assoc]

theorem last_suffix {α : Type} (l : List α) (x : α) (rest : List α) : (l.getLastD x :: rest) <:+ (x :: (l ++ rest)) := by
  induction l generalizing x with
  | nil => exact List.suffix_refl _
  | cons y l ih =>
    rw [List.getLastD_cons]
    exact (ih y).trans (List.suffix_cons _ _)

theorem reads_run {ms ms' : MemStore} {ops : List StoreOp} {as : List Addr} {ts : List Tree} (h : Reads ms ops as ts ms') :
    ms.run ops = some ms' := by
  induction h with
  | nil ms => rfl
  | cons h1 h2 h3 h4 ih3 ih4 =>
    rw [run_append, run_append, run_append, h1, Option.bind_some, h2, Option.bind_some, ih3]
    exact ih4

theorem reads_walks {ms ms' : MemStore} {ops : List StoreOp} {as : List Addr} {ts : List Tree} (h : Reads ms ops as ts ms') :
    ∀ rest, Walks (ms :: (ms.moments ops ++ rest)) as ts (ms' :: rest) := by
  induction h with
  | nil ms => intro rest; exact .nil _
  | @cons ms ms₁ ms₂ ms₃ ms₄ ops₁ ops₂ ops₃ ops₄ a as ts us h1 h2 h3 h4 ih3 ih4 =>
    intro rest
    have e : ms.moments (ops₁ ++ ops₂ ++ ops₃ ++ ops₄) ++ rest =
        ms.moments ops₁ ++ (ms₁.moments ops₂ ++ (ms₂.moments ops₃ ++ (ms₃.moments ops₄ ++ rest))) := by
      rw [List.append_assoc, List.append_assoc, moments_append h1, moments_append h2, moments_append (reads_run h3)]
      simp only [List.append_assoc]
    rw [e]
    have s1 := last_suffix (ms.moments ops₁) ms (ms₁.moments ops₂ ++ (ms₂.moments ops₃ ++ (ms₃.moments ops₄ ++ rest)))
    have s2 := last_suffix (ms₁.moments ops₂) ms₁ (ms₂.moments ops₃ ++ (ms₃.moments ops₄ ++ rest))
    rw [moments_last h1] at s1
    rw [moments_last h2] at s2
    exact .cons s1 s2 (ih3 _) (ih4 _)

/-! ## Calls for other traces -/

theorem moments_frame {t : ID} : ∀ (ops : List StoreOp) {ms : MemStore} {A : AStore} {sm : AMap ID Addr} {T : ATrace} {f : ID → List Entry},
    Stands t ms A sm T → HSim A f → Keeps t ops → (∀ id as, StoreOp.collect id as ∈ ops → id.trace ≠ t) →
    ∀ m ∈ ms.moments ops, ∀ s a, sm.get s = some a → m.heap a = ms.heap a
  | [], ms, A, sm, T, f, S, H, hk, ho => by intro m hm; cases hm
  | op :: ops, ms, A, sm, T, f, S, H, hk, ho => by
    obtain ⟨ms1, h1, S1⟩ := sim_run S.sim [op]
    have hstep : ms.step op = some ms1 := by
      simp only [MemStore.run] at h1
      split at h1
      · cases h1
      · rename_i m hm
        injection h1 with h1
        rw [hm, h1]
    have hk1 : Keeps t [op] := fun ids hi => hk ids (by simp at hi; simp [hi])
    obtain ⟨sm1, S', e⟩ := S.run h1 hk1
    have HT : HRep (some T) (f t) := by
      have := H t
      rw [S.at_] at this
      exact this
    have W := weak_of_stands S HT (D := f t) (fun _ h => h)
    have O := op_weak_other S.sim H W (fun s a ha => S.rep.lt s a ha) (op := op) (fun ids e => hk1 ids (by simp [e]))
      (fun id as e => ho id as (by simp [e]))
    obtain ⟨ms2, q1, -, F, -⟩ := run_frame (ops := [op]) (t := t) (fun id as hi => ho id as (by simp at hi; simp [hi])) S.sim
    rw [h1] at q1
    injection q1 with q1
    subst q1
    intro m hm s a ha
    rw [MemStore.moments, opSteps_last hstep, List.mem_append] at hm
    rcases hm with hm | hm
    · exact (O m hm).2 s a ha
    · rw [moments_frame ops S' (H.step op) (fun ids hi => hk ids (List.mem_cons_of_mem _ hi))
        (fun id as hi => ho id as (List.mem_cons_of_mem _ hi)) m hm s a (e s a ha)]
      obtain ⟨p, -, hid⟩ := S.rep.id s a ha
      exact F a (S.rep.lt s a ha) (by rw [hid])

theorem walks_frame {h₀ : Addr → Node} {P : Addr → Prop} (hc : ∀ a, P a → ∀ c ∈ (h₀ a).sub, P c) {l l' : List MemStore} {as : List Addr}
    {ts : List Tree} (h : Walks l as ts l') : (∀ m ∈ l, ∀ a, P a → m.heap a = h₀ a) → (∀ a ∈ as, P a) →
    ∀ fuel us, as.mapM (unfoldNode h₀ fuel) = some us → ts = us := by
  induction h with
  | nil l =>
    intro _ _ fuel us hu
    exact (Forest.mapM_nil_some hu).symm
  | @cons m₁ m₂ l l₁ l₂ l₃ l₄ a as ts us h1 h2 h3 h4 ih3 ih4 =>
    intro hl has fuel vs hv
    have ha := has a (List.mem_cons_self ..)
    have g1 := hl m₁ (h1.subset (List.mem_cons_self ..)) a ha
    have g2 := hl m₂ (h1.subset (h2.subset (List.mem_cons_self ..))) a ha
    obtain ⟨v, vs', e1, e2, rfl⟩ := Forest.mapM_cons_some hv
    rw [ih4 (fun m hm => hl m (h1.subset (h2.subset ((walks_suffix h3).subset hm)))) (fun b hb => has b (List.mem_cons_of_mem _ hb)) fuel vs' e2]
    cases fuel with
    | zero => cases e1
    | succ fuel =>
      simp only [unfoldNode] at e1
      cases q : (h₀ a).sub.mapM (unfoldNode h₀ fuel) with
      | none => rw [q] at e1; cases e1
      | some cs =>
        rw [q] at e1
        injection e1 with e1
        rw [← e1, ih3 (fun m hm => hl m (h1.subset (h2.subset hm))) (by rw [g2]; exact hc a ha) fuel cs (by rw [g2]; exact q), g1]

end Appdash
