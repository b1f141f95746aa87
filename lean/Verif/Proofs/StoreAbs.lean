import Verif.Model.Store
import Verif.Proofs.Forest

/-!
# Address-free view of the memory store

A proof device: each trace is described by functions from span IDs (declared parent, annotations, children), and the
heap store is shown to simulate the corresponding operations on this description.
-/

namespace Appdash

/-- Pointwise update. -/
def upd {α β : Type} [DecidableEq α] (f : α → β) (a : α) (b : β) : α → β := fun x => if x = a then b else f x

@[simp] theorem upd_self {α β : Type} [DecidableEq α] (f : α → β) (a : α) (b : β) : upd f a b a = b := by
  simp [upd]

theorem upd_ne {α β : Type} [DecidableEq α] (f : α → β) {a x : α} (b : β) (h : x ≠ a) :
    upd f a b x = f x := by simp [upd, h]

theorem upd_apply {α β : Type} [DecidableEq α] (f : α → β) (a x : α) (b : β) :
    upd f a b x = if x = a then b else f x := rfl

/-- One trace, without addresses. -/
structure ATrace where
  root : ID
  par : ID → Option ID
  anns : ID → List Annotation
  sub : ID → List ID

namespace ATrace

def appendSub (T : ATrace) (p : ID) (cs : List ID) : ATrace :=
  { T with sub := upd T.sub p (T.sub p ++ cs) }

def setSub (T : ATrace) (p : ID) (cs : List ID) : ATrace :=
  { T with sub := upd T.sub p cs }

def insert (T : ATrace) (x : ID) : ATrace :=
  match T.par x with
  | none => T
  | some p => if (T.par p).isSome then T.appendSub p [x] else T.appendSub T.root [x]

def reattach (T : ATrace) (dst src : ID) : ATrace :=
  (T.appendSub dst ((T.sub src).filter fun c => decide (T.par c = some dst))).setSub src
    ((T.sub src).filter fun c => decide (T.par c ≠ some dst))

def moveTemp (T : ATrace) (old : ID) : ATrace :=
  (T.appendSub T.root ((T.sub old).filter fun c => decide (T.par c ≠ some old))).setSub old
    ((T.sub old).filter fun c => decide (T.par c = some old))

def addNew (T : ATrace) (s p : ID) (as : List Annotation) : ATrace :=
  { T with par := upd T.par s (some p), anns := upd T.anns s as, sub := upd T.sub s [] }

def fresh (s p : ID) (as : List Annotation) : ATrace :=
  { root := s, par := upd (fun _ => none) s (some p), anns := upd (fun _ => []) s as, sub := fun _ => [] }

def collect (T : ATrace) (s p : ID) (as : List Annotation) : ATrace :=
  if (T.par s).isSome then { T with anns := upd T.anns s (T.anns s ++ as) }
  else if p = 0 ∨ T.par T.root = some s then
    (((({ T.addNew s p as with root := s } : ATrace).reattach s T.root).insert T.root).moveTemp T.root)
  else ((T.addNew s p as).insert s).reattach s T.root

end ATrace

/-- The store without addresses. -/
abbrev AStore := ID → Option ATrace

def AStore.collect (A : AStore) (id : SpanID) (as : List Annotation) : AStore :=
  upd A id.trace (some (match A id.trace with
    | none => ATrace.fresh id.span id.parent as
    | some T => T.collect id.span id.parent as))

def AStore.delete (A : AStore) (ids : List ID) : AStore := fun t => if t ∈ ids then none else A t

def AStore.step (A : AStore) : StoreOp → AStore
  | .collect id as => A.collect id as
  | .delete ids => A.delete ids

def AStore.run (A : AStore) : List StoreOp → AStore
  | [] => A
  | op :: ops => (A.step op).run ops

def AStore.empty : AStore := fun _ => none

/-- The address of a span. -/
def addrOf (sm : AMap ID Addr) (s : ID) : Addr := (sm.get s).getD 0

/-- `sm` and the heap represent the trace `T`. -/
structure Rep (h : Addr → Node) (n : Nat) (t : ID) (sm : AMap ID Addr) (T : ATrace) : Prop where
  dom : ∀ s, (T.par s).isSome = (sm.get s).isSome
  lt : ∀ s a, sm.get s = some a → a < n
  id : ∀ s a, sm.get s = some a → ∃ p, T.par s = some p ∧ (h a).id = ⟨t, s, p⟩
  anns : ∀ s a, sm.get s = some a → (h a).anns = T.anns s
  sub : ∀ s a, sm.get s = some a → (h a).sub = (T.sub s).map (addrOf sm)
  closed : ∀ s c, c ∈ T.sub s → (T.par c).isSome = true

/-- Heap change confined to nodes of trace `t`, keeping all IDs. -/
def Frame (t : ID) (h h' : Addr → Node) : Prop :=
  ∀ a, (h' a).id = (h a).id ∧ ((h a).id.trace ≠ t → h' a = h a)

theorem Frame.refl (t : ID) (h : Addr → Node) : Frame t h h := fun _ => ⟨rfl, fun _ => rfl⟩

theorem Frame.trans {t : ID} {h h' h'' : Addr → Node} (f1 : Frame t h h') (f2 : Frame t h' h'') :
    Frame t h h'' := by
  intro a
  refine ⟨(f2 a).1.trans (f1 a).1, fun hne => ?_⟩
  rw [(f2 a).2 (by rw [(f1 a).1]; exact hne), (f1 a).2 hne]

namespace Rep

variable {h : Addr → Node} {n : Nat} {t : ID} {sm : AMap ID Addr} {T : ATrace}

theorem get_of_dom (R : Rep h n t sm T) {s : ID} (hs : (T.par s).isSome = true) :
    sm.get s = some (addrOf sm s) := by
  rw [R.dom] at hs
  unfold addrOf
  cases hg : sm.get s with
  | none => simp [hg] at hs
  | some a => rfl

theorem addr_eq {s : ID} {a : Addr} (hg : sm.get s = some a) : addrOf sm s = a := by
  simp [addrOf, hg]

theorem inj (R : Rep h n t sm T) {s s' : ID} {a : Addr} (h1 : sm.get s = some a) (h2 : sm.get s' = some a) :
    s = s' := by
  obtain ⟨p, -, e1⟩ := R.id _ _ h1
  obtain ⟨p', -, e2⟩ := R.id _ _ h2
  rw [e1] at e2
  injection e2

theorem parent_eq (R : Rep h n t sm T) {c : ID} (hc : (T.par c).isSome = true) (d : ID) :
    (h (addrOf sm c)).id.parent = d ↔ T.par c = some d := by
  obtain ⟨p, hp, hi⟩ := R.id _ _ (R.get_of_dom hc)
  rw [hp, hi]
  simp

theorem filter_eq (R : Rep h n t sm T) (cs : List ID) (hcs : ∀ c ∈ cs, (T.par c).isSome = true) (d : ID) :
    (cs.map (addrOf sm)).filter (fun c => decide ((h c).id.parent = d)) =
      (cs.filter fun c => decide (T.par c = some d)).map (addrOf sm) := by
  rw [List.filter_map]
  congr 1
  apply List.filter_congr
  intro c hc
  simp only [Function.comp]
  exact decide_eq_decide.2 (R.parent_eq (hcs c hc) d)

theorem filter_ne (R : Rep h n t sm T) (cs : List ID) (hcs : ∀ c ∈ cs, (T.par c).isSome = true) (d : ID) :
    (cs.map (addrOf sm)).filter (fun c => decide ((h c).id.parent ≠ d)) =
      (cs.filter fun c => decide (T.par c ≠ some d)).map (addrOf sm) := by
  rw [List.filter_map]
  congr 1
  apply List.filter_congr
  intro c hc
  simp only [Function.comp]
  exact decide_eq_decide.2 (not_congr (R.parent_eq (hcs c hc) d))

/-- Replacing one node's child list. -/
theorem setSub (R : Rep h n t sm T) {p : ID} {a : Addr} (hp : sm.get p = some a) (cs : List ID)
    (hcs : ∀ c ∈ cs, (T.par c).isSome = true) :
    Rep (heapUpd h a { h a with sub := cs.map (addrOf sm) }) n t sm (T.setSub p cs) ∧
      Frame t h (heapUpd h a { h a with sub := cs.map (addrOf sm) }) := by
  refine ⟨⟨R.dom, R.lt, ?_, ?_, ?_, ?_⟩, ?_⟩
  · intro s b hb
    obtain ⟨q, hq, hi⟩ := R.id s b hb
    refine ⟨q, hq, ?_⟩
    simp only [heapUpd]
    split
    · rename_i e; subst e; exact hi
    · exact hi
  · intro s b hb
    have := R.anns s b hb
    simp only [heapUpd, ATrace.setSub]
    split
    · rename_i e; subst e; exact this
    · exact this
  · intro s b hb
    simp only [heapUpd, ATrace.setSub, upd]
    by_cases e : s = p
    · subst e
      rw [hp] at hb
      injection hb with hb
      subst hb
      simp
    · have : b ≠ a := fun e' => e (R.inj hb (e' ▸ hp))
      simp only [this, if_false, e]
      exact R.sub s b hb
  · intro s c hc
    simp only [ATrace.setSub, upd] at hc
    split at hc
    · exact hcs c hc
    · exact R.closed s c hc
  · intro b
    simp only [heapUpd]
    split
    · rename_i e
      subst e
      refine ⟨rfl, fun hne => ?_⟩
      obtain ⟨q, -, hi⟩ := R.id _ _ hp
      rw [hi] at hne
      exact absurd rfl hne
    · exact ⟨rfl, fun _ => rfl⟩

theorem appendSub (R : Rep h n t sm T) {p : ID} {a : Addr} (hp : sm.get p = some a) (cs : List ID)
    (hcs : ∀ c ∈ cs, (T.par c).isSome = true) :
    Rep (heapUpd h a { h a with sub := (h a).sub ++ cs.map (addrOf sm) }) n t sm (T.appendSub p cs) ∧
      Frame t h (heapUpd h a { h a with sub := (h a).sub ++ cs.map (addrOf sm) }) := by
  have := R.setSub hp (T.sub p ++ cs) (by
    intro c hc
    rcases List.mem_append.1 hc with hc | hc
    · exact R.closed p c hc
    · exact hcs c hc)
  rw [List.map_append, ← R.sub p a hp] at this
  exact this

end Rep

/-- The heap of `ms'` may differ from that of `ms`; everything else is equal. -/
def SameMaps (ms ms' : MemStore) : Prop :=
  ms'.next = ms.next ∧ ms'.trace = ms.trace ∧ ms'.span = ms.span

theorem SameMaps.refl (ms : MemStore) : SameMaps ms ms := ⟨rfl, rfl, rfl⟩

theorem SameMaps.trans {a b c : MemStore} (h1 : SameMaps a b) (h2 : SameMaps b c) : SameMaps a c :=
  ⟨h2.1.trans h1.1, h2.2.1.trans h1.2.1, h2.2.2.trans h1.2.2⟩

theorem insert_sim {ms : MemStore} {t : ID} {sm : AMap ID Addr} {T : ATrace} (hsm : ms.span.get t = some sm)
    (R : Rep ms.heap ms.next t sm T) {x : ID} {ra xa : Addr} (hr : sm.get T.root = some ra)
    (hx : sm.get x = some xa) :
    SameMaps ms (ms.insert ra xa) ∧ Rep (ms.insert ra xa).heap ms.next t sm (T.insert x) ∧
      Frame t ms.heap (ms.insert ra xa).heap := by
  obtain ⟨p, hp, hi⟩ := R.id _ _ hx
  have hxs : ∀ c ∈ [x], (T.par c).isSome = true := by simp [hp]
  have hxm : [x].map (addrOf sm) = [xa] := by simp [addrOf, hx]
  unfold MemStore.insert MemStore.spanGet
  simp only [hi, hsm]
  unfold ATrace.insert
  simp only [hp]
  cases hg : sm.get p with
  | some pa =>
    have : (T.par p).isSome = true := by rw [R.dom, hg]; rfl
    simp only [this, if_true]
    have := R.appendSub hg [x] hxs
    rw [hxm] at this
    exact ⟨⟨rfl, rfl, rfl⟩, this⟩
  | none =>
    have : ¬ (T.par p).isSome = true := by rw [R.dom, hg]; simp
    simp only [this]
    have := R.appendSub hr [x] hxs
    rw [hxm] at this
    exact ⟨⟨rfl, rfl, rfl⟩, this⟩

theorem move_sim {ms : MemStore} {t : ID} {sm : AMap ID Addr} {T : ATrace}
    (R : Rep ms.heap ms.next t sm T) {dst src : ID} {da sa : Addr} (hd : sm.get dst = some da)
    (hs : sm.get src = some sa) (cs1 cs2 : List ID) (h1 : ∀ c ∈ cs1, (T.par c).isSome = true)
    (h2 : ∀ c ∈ cs2, (T.par c).isSome = true) :
    SameMaps ms ((ms.appendSub da (cs1.map (addrOf sm))).setSub sa (cs2.map (addrOf sm))) ∧
    Rep ((ms.appendSub da (cs1.map (addrOf sm))).setSub sa (cs2.map (addrOf sm))).heap ms.next t sm
      ((T.appendSub dst cs1).setSub src cs2) ∧
    Frame t ms.heap ((ms.appendSub da (cs1.map (addrOf sm))).setSub sa (cs2.map (addrOf sm))).heap := by
  obtain ⟨R1, F1⟩ := R.appendSub hd cs1 h1
  obtain ⟨R2, F2⟩ := R1.setSub hs cs2 h2
  exact ⟨⟨rfl, rfl, rfl⟩, R2, F1.trans F2⟩

theorem reattach_sim {ms : MemStore} {t : ID} {sm : AMap ID Addr} {T : ATrace}
    (R : Rep ms.heap ms.next t sm T) {dst src : ID} {da sa : Addr} (hd : sm.get dst = some da)
    (hs : sm.get src = some sa) (hne : dst ≠ src) :
    ∃ ms', ms.reattachChildren da sa = some ms' ∧ SameMaps ms ms' ∧
      Rep ms'.heap ms.next t sm (T.reattach dst src) ∧ Frame t ms.heap ms'.heap := by
  have hane : da ≠ sa := fun e => hne (R.inj hd (e ▸ hs))
  obtain ⟨p, -, hi⟩ := R.id _ _ hd
  unfold MemStore.reattachChildren
  simp only [hane, if_false, Option.some.injEq, exists_eq_left']
  have hcl := R.closed src
  rw [R.sub _ _ hs, hi]
  simp only
  have e1 := R.filter_eq (T.sub src) hcl dst
  have e2 := R.filter_ne (T.sub src) hcl dst
  have key := move_sim R hd hs ((T.sub src).filter fun c => decide (T.par c = some dst))
    ((T.sub src).filter fun c => decide (T.par c ≠ some dst))
    (fun c hc => hcl c (List.mem_filter.1 hc).1) (fun c hc => hcl c (List.mem_filter.1 hc).1)
  rw [← e1, ← e2] at key
  have e3 : ∀ c ∈ (T.sub src).map (addrOf sm),
      ((ms.appendSub da (List.filter (fun c => decide ((ms.heap c).id.parent = dst))
        ((T.sub src).map (addrOf sm)))).heap c).id = (ms.heap c).id := by
    intro c _
    simp only [MemStore.appendSub, heapUpd]
    split
    · rename_i e; subst e; rfl
    · rfl
  have e4 : List.filter (fun c => decide (((ms.appendSub da (List.filter
        (fun c => decide ((ms.heap c).id.parent = dst)) ((T.sub src).map (addrOf sm)))).heap c).id.parent ≠ dst))
        ((T.sub src).map (addrOf sm)) =
      List.filter (fun c => decide ((ms.heap c).id.parent ≠ dst)) ((T.sub src).map (addrOf sm)) := by
    apply List.filter_congr
    intro c hc
    rw [e3 c hc]
  first
    | exact key
    | (rw [e4]; exact key)

theorem moveTemp_sim {ms : MemStore} {t : ID} {sm : AMap ID Addr} {T : ATrace}
    (R : Rep ms.heap ms.next t sm T) {old : ID} {ra oa : Addr} (hr : sm.get T.root = some ra)
    (ho : sm.get old = some oa) :
    SameMaps ms (ms.moveTempChildren ra oa) ∧ Rep (ms.moveTempChildren ra oa).heap ms.next t sm (T.moveTemp old) ∧
      Frame t ms.heap (ms.moveTempChildren ra oa).heap := by
  obtain ⟨p, -, hi⟩ := R.id _ _ ho
  unfold MemStore.moveTempChildren
  have hcl := R.closed old
  simp only [R.sub _ _ ho, hi]
  have e1 := R.filter_eq (T.sub old) hcl old
  have e2 := R.filter_ne (T.sub old) hcl old
  have key := move_sim R hr ho ((T.sub old).filter fun c => decide (T.par c ≠ some old))
    ((T.sub old).filter fun c => decide (T.par c = some old))
    (fun c hc => hcl c (List.mem_filter.1 hc).1) (fun c hc => hcl c (List.mem_filter.1 hc).1)
  rw [← e1, ← e2] at key
  have e3 : ∀ (X : List Addr) (c : Addr), ((ms.appendSub ra X).heap c).id = (ms.heap c).id := by
    intro X c
    simp only [MemStore.appendSub, heapUpd]
    split
    · rename_i e; subst e; rfl
    · rfl
  simp only [e3]
  exact key

/-- The heap store represents `A`. -/
def SimT (ms : MemStore) (t : ID) : Option ATrace → Prop
  | none => ms.trace.get t = none ∧ ms.span.get t = none
  | some T => ∃ sm ra, ms.span.get t = some sm ∧ ms.trace.get t = some ra ∧ sm.get T.root = some ra ∧
      Rep ms.heap ms.next t sm T

def Sim (ms : MemStore) (A : AStore) : Prop := ∀ t, SimT ms t (A t)

theorem Rep.frame {h h' : Addr → Node} {n n' : Nat} {t t' : ID} {sm : AMap ID Addr} {T : ATrace}
    (R : Rep h n t' sm T) (F : ∀ a, a < n → (h a).id.trace ≠ t → h' a = h a) (hn : n ≤ n') (hne : t' ≠ t) :
    Rep h' n' t' sm T := by
  have key : ∀ s a, sm.get s = some a → h' a = h a := by
    intro s a ha
    obtain ⟨p, -, hi⟩ := R.id s a ha
    apply F a (R.lt s a ha)
    rw [hi]
    exact hne
  refine ⟨R.dom, fun s a ha => Nat.lt_of_lt_of_le (R.lt s a ha) hn, ?_, ?_, ?_, R.closed⟩
  · intro s a ha; rw [key s a ha]; exact R.id s a ha
  · intro s a ha; rw [key s a ha]; exact R.anns s a ha
  · intro s a ha; rw [key s a ha]; exact R.sub s a ha

theorem SimT.frame {ms ms' : MemStore} {t t' : ID} {o : Option ATrace} (S : SimT ms t' o)
    (F : ∀ a, a < ms.next → (ms.heap a).id.trace ≠ t → ms'.heap a = ms.heap a) (hn : ms.next ≤ ms'.next)
    (h1 : ms'.trace.get t' = ms.trace.get t') (h2 : ms'.span.get t' = ms.span.get t') (hne : t' ≠ t) :
    SimT ms' t' o := by
  cases o with
  | none => exact ⟨h1.trans S.1, h2.trans S.2⟩
  | some T =>
    obtain ⟨sm, ra, e1, e2, e3, R⟩ := S
    exact ⟨sm, ra, h2.trans e1, h1.trans e2, e3, R.frame F hn hne⟩

theorem sim_new : Sim MemStore.new AStore.empty := fun _ => ⟨rfl, rfl⟩

theorem sim_delete {ms : MemStore} {A : AStore} (S : Sim ms A) (ids : List ID) :
    Sim (ms.delete ids) (A.delete ids) := by
  induction ids generalizing ms A with
  | nil =>
    intro t
    simpa [MemStore.delete, AStore.delete] using S t
  | cons i ids ih =>
    have S' : Sim { ms with trace := ms.trace.del i, span := ms.span.del i } (A.delete [i]) := by
      intro t
      by_cases e : t = i
      · subst e
        simp only [AStore.delete, List.mem_singleton, if_true]
        exact ⟨AMap.get_del_self _ _, AMap.get_del_self _ _⟩
      · simp only [AStore.delete, List.mem_singleton, e, if_false]
        have e' : i ≠ t := fun h => e h.symm
        exact (S t).frame (t := i) (fun _ _ _ => rfl) (Nat.le_refl _) (AMap.get_del_ne _ e')
          (AMap.get_del_ne _ e') e
    have := ih S'
    have e : A.delete (i :: ids) = (A.delete [i]).delete ids := by
      funext t
      simp only [AStore.delete, List.mem_cons, List.not_mem_nil, or_false]
      by_cases h1 : t = i <;> by_cases h2 : t ∈ ids <;> simp [h1, h2]
    rw [e]
    exact this

/-- Adding a fresh span to the span map. -/
theorem Rep.addNew {h : Addr → Node} {n : Nat} {t : ID} {sm : AMap ID Addr} {T : ATrace}
    (R : Rep h n t sm T) (s p : ID) (as : List Annotation) (hs : sm.get s = none) :
    Rep (heapUpd h n { id := ⟨t, s, p⟩, anns := as, sub := [] }) (n + 1) t (sm.set s n) (T.addNew s p as) := by
  have hpar : T.par s = none := by
    have := R.dom s
    rw [hs] at this
    cases hp : T.par s with
    | none => rfl
    | some q => simp [hp] at this
  have hne : ∀ x a, sm.get x = some a → x ≠ s ∧ a ≠ n := by
    intro x a ha
    refine ⟨?_, Nat.ne_of_lt (R.lt x a ha)⟩
    rintro rfl
    rw [hs] at ha
    simp at ha
  have haddr : ∀ x, (T.par x).isSome = true → addrOf (sm.set s n) x = addrOf sm x := by
    intro x hx
    have : x ≠ s := by rintro rfl; rw [hpar] at hx; simp at hx
    unfold addrOf
    rw [AMap.get_set_ne _ _ (fun e => this e.symm)]
  refine ⟨?_, ?_, ?_, ?_, ?_, ?_⟩
  · intro x
    simp only [ATrace.addNew, upd, AMap.get_set]
    by_cases e : x = s
    · subst e; simp
    · have e' : ¬ s = x := fun h => e h.symm
      simp only [e, if_false, e']
      exact R.dom x
  · intro x a ha
    rw [AMap.get_set] at ha
    split at ha
    · injection ha with ha; omega
    · have := R.lt x a ha; omega
  · intro x a ha
    rw [AMap.get_set] at ha
    split at ha
    · rename_i e
      subst e
      injection ha with ha
      subst ha
      exact ⟨p, by simp [ATrace.addNew], by simp [heapUpd]⟩
    · obtain ⟨h1, h2⟩ := hne x a ha
      obtain ⟨q, hq, hi⟩ := R.id x a ha
      exact ⟨q, by simp [ATrace.addNew, upd, h1, hq], by simp [heapUpd, h2, hi]⟩
  · intro x a ha
    rw [AMap.get_set] at ha
    split at ha
    · rename_i e
      subst e
      injection ha with ha
      subst ha
      simp [ATrace.addNew, heapUpd]
    · obtain ⟨h1, h2⟩ := hne x a ha
      simp [ATrace.addNew, upd, heapUpd, h1, h2, R.anns x a ha]
  · intro x a ha
    rw [AMap.get_set] at ha
    split at ha
    · rename_i e
      subst e
      injection ha with ha
      subst ha
      simp [ATrace.addNew, heapUpd]
    · obtain ⟨h1, h2⟩ := hne x a ha
      simp only [ATrace.addNew, upd, heapUpd, h1, h2, if_false, R.sub x a ha]
      apply List.map_congr_left
      intro c hc
      exact (haddr c (R.closed x c hc)).symm
  · intro x c hc
    simp only [ATrace.addNew, upd] at hc ⊢
    split at hc
    · simp at hc
    · split
      · rfl
      · exact R.closed x c hc

/-- The effect of `collect` on its own trace. -/
def ATrace.next (o : Option ATrace) (s p : ID) (as : List Annotation) : ATrace :=
  match o with
  | none => ATrace.fresh s p as
  | some T => T.collect s p as

/-- Simulation of `collect` for one trace, with the frame: nodes of other traces are not written. -/
theorem simT_collect {ms : MemStore} {t : ID} {o : Option ATrace} (St : SimT ms t o) (s p : ID)
    (as : List Annotation) :
    ∃ ms', ms.collect ⟨t, s, p⟩ as = some ms' ∧
      SimT ms' t (some (ATrace.next o s p as)) ∧
      (∀ a, a < ms.next → (ms.heap a).id.trace ≠ t → ms'.heap a = ms.heap a) ∧ ms.next ≤ ms'.next ∧
      (∀ t', t' ≠ t → ms'.trace.get t' = ms.trace.get t' ∧ ms'.span.get t' = ms.span.get t') := by
  cases o with
  | none =>
    obtain ⟨e1, e2⟩ := St
    have hnew : ms.collect ⟨t, s, p⟩ as = some
        { heap := heapUpd ms.heap ms.next { id := ⟨t, s, p⟩, anns := as, sub := [] }
          next := ms.next + 1
          trace := ms.trace.set t ms.next
          span := ms.span.set t [(s, ms.next)] } := by
      simp [MemStore.collect, MemStore.attach, MemStore.fixRoot, e1, e2, AMap.set]
    refine ⟨_, hnew, ?_, ?_, ?_, ?_⟩
    · show SimT _ t (some (ATrace.fresh s p as))
      refine ⟨[(s, ms.next)], ms.next, by simp, by simp, by simp [ATrace.fresh, AMap.get], ?_⟩
      refine ⟨?_, ?_, ?_, ?_, ?_, ?_⟩
      · intro x
        by_cases e : x = s
        · subst e; simp [ATrace.fresh, AMap.get]
        · have e' : ¬ s = x := fun h => e h.symm
          simp [ATrace.fresh, upd, AMap.get, e, e']
      · intro x a ha
        simp only [AMap.get] at ha
        split at ha
        · injection ha with ha; subst ha; show ms.next < ms.next + 1; omega
        · simp at ha
      · intro x a ha
        simp only [AMap.get] at ha
        split at ha
        · rename_i e
          subst e
          injection ha with ha
          subst ha
          exact ⟨p, by simp [ATrace.fresh], by simp [heapUpd]⟩
        · simp at ha
      · intro x a ha
        simp only [AMap.get] at ha
        split at ha
        · rename_i e
          subst e
          injection ha with ha
          subst ha
          simp [ATrace.fresh, heapUpd]
        · simp at ha
      · intro x a ha
        simp only [AMap.get] at ha
        split at ha
        · rename_i e
          subst e
          injection ha with ha
          subst ha
          simp [ATrace.fresh, heapUpd]
        · simp at ha
      · intro x c hc
        simp [ATrace.fresh] at hc
    · intro a ha _
      have : a ≠ ms.next := by omega
      simp [heapUpd, this]
    · show ms.next ≤ ms.next + 1
      omega
    · intro t' ht'
      have e' : t ≠ t' := fun h => ht' h.symm
      exact ⟨AMap.get_set_ne _ _ e', AMap.get_set_ne _ _ e'⟩
  | some T =>
    simp only [ATrace.next]
    obtain ⟨sm, ra, e1, e2, e3, R⟩ := St
    cases hg : sm.get s with
    | some sa =>
      have hpar : (T.par s).isSome = true := by rw [R.dom, hg]; rfl
      have hcol : ms.collect ⟨t, s, p⟩ as = some { ms with
          heap := heapUpd ms.heap sa { ms.heap sa with anns := (ms.heap sa).anns ++ as } } := by
        simp [MemStore.collect, e1, hg]
      have hT : T.collect s p as = { T with anns := upd T.anns s (T.anns s ++ as) } := by
        simp [ATrace.collect, hpar]
      obtain ⟨q, hq, hi⟩ := R.id _ _ hg
      refine ⟨_, hcol, ?_, ?_, Nat.le_refl _, fun _ _ => ⟨rfl, rfl⟩⟩
      · show SimT _ t (some (T.collect s p as))
        rw [hT]
        refine ⟨sm, ra, e1, e2, e3, ⟨R.dom, R.lt, ?_, ?_, ?_, R.closed⟩⟩
        · intro x a ha
          obtain ⟨q', hq', hi'⟩ := R.id x a ha
          refine ⟨q', hq', ?_⟩
          simp only [heapUpd]
          split
          · rename_i e; rw [← e]; exact hi'
          · exact hi'
        · intro x a ha
          simp only [heapUpd, upd]
          by_cases e : x = s
          · subst e
            rw [hg] at ha
            injection ha with ha
            subst ha
            simp [R.anns _ _ hg]
          · have : a ≠ sa := fun e' => e (R.inj ha (e' ▸ hg))
            simp [this, e, R.anns _ _ ha]
        · intro x a ha
          simp only [heapUpd]
          split
          · rename_i e; subst e; exact R.sub x _ ha
          · exact R.sub x a ha
      · intro a _ hne
        have : a ≠ sa := by
          rintro rfl
          rw [hi] at hne
          exact hne rfl
        simp [heapUpd, this]
    | none =>
      have hpar : T.par s = none := by
        have := R.dom s
        rw [hg] at this
        cases hp : T.par s with
        | none => rfl
        | some q => simp [hp] at this
      have hroot : (T.par T.root).isSome = true := by rw [R.dom, e3]; rfl
      have hrs : T.root ≠ s := by
        intro e
        rw [e, hpar] at hroot
        simp at hroot
      have hral : ra < ms.next := R.lt _ _ e3
      have hrane : ms.next ≠ ra := by omega
      obtain ⟨rp, hrp, hri⟩ := R.id _ _ e3
      -- after allocation
      let ms1 : MemStore := { ms with
        heap := heapUpd ms.heap ms.next { id := ⟨t, s, p⟩, anns := as, sub := [] }
        next := ms.next + 1
        span := ms.span.set t (sm.set s ms.next) }
      let sm1 := sm.set s ms.next
      have R1 : Rep ms1.heap ms1.next t sm1 (T.addNew s p as) := R.addNew s p as hg
      have hsm1 : ms1.span.get t = some sm1 := by simp [ms1, sm1]
      have hs1 : sm1.get s = some ms.next := by simp [sm1]
      have hr1 : sm1.get T.root = some ra := by
        simp only [sm1]
        rw [AMap.get_set_ne _ _ (fun e => hrs e.symm)]
        exact e3
      have hcol : ms.collect ⟨t, s, p⟩ as = ms1.attach ⟨t, s, p⟩ ms.next := by
        simp [MemStore.collect, e1, hg, ms1]
      have htr1 : ms1.trace.get t = some ra := e2
      have hheapr : (ms1.heap ra).id.parent = rp := by
        have : ms1.heap ra = ms.heap ra := by simp [ms1, heapUpd, hrane.symm]
        rw [this, hri]
      have hfr1 : ∀ a, a < ms.next → ms1.heap a = ms.heap a := by
        intro a ha
        have : a ≠ ms.next := by omega
        simp [ms1, heapUpd, this]
      rw [hcol]
      by_cases hc : p = 0 ∨ T.par T.root = some s
      · -- new root
        have hT : T.collect s p as =
            (((({ T.addNew s p as with root := s } : ATrace).reattach s T.root).insert T.root).moveTemp T.root) := by
          simp [ATrace.collect, hpar, hc]
        have hcond : ms.next ≠ ra ∧ ((⟨t, s, p⟩ : SpanID).isRoot = true ∨ (ms1.heap ra).id.parent = s) := by
          refine ⟨hrane, ?_⟩
          rcases hc with hc | hc
          · left; simp [SpanID.isRoot, hc]
          · right
            rw [hheapr]
            rw [hrp] at hc
            injection hc
        let ms2 : MemStore := { ms1 with trace := ms1.trace.set t ms.next }
        have R2 : Rep ms2.heap ms2.next t sm1 ({ T.addNew s p as with root := s } : ATrace) :=
          ⟨R1.dom, R1.lt, R1.id, R1.anns, R1.sub, R1.closed⟩
        obtain ⟨ms3, h3, M3, R3, F3⟩ := reattach_sim R2 hs1 hr1 (fun e => hrs e.symm)
        have R3' : Rep ms3.heap ms3.next t sm1 _ := M3.1.symm ▸ R3
        have hsm3 : ms3.span.get t = some sm1 := by rw [M3.2.2]; exact hsm1
        obtain ⟨M4, R4, F4⟩ := insert_sim hsm3 R3' (x := T.root) hs1 hr1
        let ms4 := ms3.insert ms.next ra
        have R4' : Rep ms4.heap ms4.next t sm1 _ := M4.1.symm ▸ R4
        have hroot4 : sm1.get ((({ T.addNew s p as with root := s } : ATrace).reattach s T.root).insert
            T.root).root = some ms.next := by
          have : ((({ T.addNew s p as with root := s } : ATrace).reattach s T.root).insert T.root).root = s := by
            unfold ATrace.insert
            split
            · rfl
            · split <;> rfl
          rw [this]
          exact hs1
        obtain ⟨M5, R5, F5⟩ := moveTemp_sim R4' hroot4 hr1
        let ms5 := ms4.moveTempChildren ms.next ra
        have M : SameMaps ms2 ms5 := (M3.trans M4).trans M5
        have hfix : ms1.fixRoot ⟨t, s, p⟩ ms.next ra = some (ms5, ms.next) := by
          unfold MemStore.fixRoot
          rw [if_pos hcond]
          show (match MemStore.reattachChildren ms2 ms.next ra with
            | none => none
            | some ms => some ((ms.insert _ ra).moveTempChildren _ ra, _)) = _
          rw [h3]
        have hatt : ms1.attach ⟨t, s, p⟩ ms.next = some ms5 := by
          unfold MemStore.attach
          simp only [htr1, hfix]
          simp
        have R5' : Rep ms5.heap ms5.next t sm1 (T.collect s p as) := by
          rw [hT]
          exact M5.1.symm ▸ R5
        refine ⟨ms5, hatt, ⟨sm1, ms.next, ?_, ?_, ?_, R5'⟩, ?_, ?_, ?_⟩
        · rw [M.2.2]; exact hsm1
        · rw [M.2.1]; simp [ms2]
        · have : (T.collect s p as).root = s := by
            rw [hT]
            have h1 : ∀ (X : ATrace) (o : ID), (X.moveTemp o).root = X.root := fun _ _ => rfl
            rw [h1]
            unfold ATrace.insert
            split
            · rfl
            · split <;> rfl
          rw [this]; exact hs1
        · intro a ha hne
          have h1 := hfr1 a ha
          have F := (F3.trans F4).trans F5
          have := (F a).2 (by show (ms1.heap a).id.trace ≠ t; rw [h1]; exact hne)
          rw [this]
          exact h1
        · rw [M.1]; show ms.next ≤ ms.next + 1; omega
        · intro t' ht'
          have e' : t ≠ t' := fun h => ht' h.symm
          rw [M.2.1, M.2.2]
          exact ⟨AMap.get_set_ne _ _ e', AMap.get_set_ne _ _ e'⟩
      · -- ordinary insertion
        have hT : T.collect s p as = ((T.addNew s p as).insert s).reattach s T.root := by
          simp [ATrace.collect, hpar, hc]
        have hp0 : p ≠ 0 := fun e => hc (Or.inl e)
        have hcond : ¬ (ms.next ≠ ra ∧ ((⟨t, s, p⟩ : SpanID).isRoot = true ∨ (ms1.heap ra).id.parent = s)) := by
          rintro ⟨-, h | h⟩
          · simp [SpanID.isRoot, hp0] at h
          · rw [hheapr] at h
            exact hc (Or.inr (by rw [hrp, h]))
        have hfix : ms1.fixRoot ⟨t, s, p⟩ ms.next ra = some (ms1, ra) := by
          unfold MemStore.fixRoot
          rw [if_neg hcond]
        have hr1' : sm1.get (T.addNew s p as).root = some ra := hr1
        obtain ⟨M2, R2, F2⟩ := insert_sim hsm1 R1 (x := s) hr1' hs1
        let ms2 := ms1.insert ra ms.next
        have R2' : Rep ms2.heap ms2.next t sm1 _ := M2.1.symm ▸ R2
        obtain ⟨ms3, h3, M3, R3, F3⟩ := reattach_sim R2' hs1 hr1 (fun e => hrs e.symm)
        have M : SameMaps ms1 ms3 := M2.trans M3
        have hatt : ms1.attach ⟨t, s, p⟩ ms.next = some ms3 := by
          unfold MemStore.attach
          simp only [htr1, hfix]
          have : (⟨t, s, p⟩ : SpanID).isRoot = false ∧ ms.next ≠ ra := ⟨by simp [SpanID.isRoot, hp0], hrane⟩
          rw [if_pos this, if_pos hrane]
          exact h3
        have R3' : Rep ms3.heap ms3.next t sm1 (T.collect s p as) := by
          rw [hT]
          exact M3.1.symm ▸ R3
        refine ⟨ms3, hatt, ⟨sm1, ra, ?_, ?_, ?_, R3'⟩, ?_, ?_, ?_⟩
        · rw [M.2.2]; exact hsm1
        · rw [M.2.1]; exact htr1
        · have : (T.collect s p as).root = T.root := by
            rw [hT]
            have h1 : ∀ (X : ATrace) (d o : ID), (X.reattach d o).root = X.root := fun _ _ _ => rfl
            rw [h1]
            unfold ATrace.insert
            split
            · rfl
            · split <;> rfl
          rw [this]; exact hr1
        · intro a ha hne
          have h1 := hfr1 a ha
          have F := F2.trans F3
          have := (F a).2 (by show (ms1.heap a).id.trace ≠ t; rw [h1]; exact hne)
          rw [this]
          exact h1
        · rw [M.1]; show ms.next ≤ ms.next + 1; omega
        · intro t' ht'
          have e' : t ≠ t' := fun h => ht' h.symm
          rw [M.2.1, M.2.2]
          exact ⟨rfl, AMap.get_set_ne _ _ e'⟩

/-- Simulation of `collect`, with the frame: nodes of other traces are not written. -/
theorem sim_collect_frame {ms : MemStore} {A : AStore} (S : Sim ms A) (id : SpanID) (as : List Annotation) :
    ∃ ms', ms.collect id as = some ms' ∧ Sim ms' (A.collect id as) ∧
      (∀ a, a < ms.next → (ms.heap a).id.trace ≠ id.trace → ms'.heap a = ms.heap a) ∧ ms.next ≤ ms'.next := by
  obtain ⟨t, s, p⟩ := id
  obtain ⟨ms', h1, h2, h3, h4, h5⟩ := simT_collect (S t) s p as
  refine ⟨ms', h1, fun t' => ?_, h3, h4⟩
  by_cases e : t' = t
  · subst e
    have : A.collect ⟨t', s, p⟩ as t' = some (ATrace.next (A t') s p as) := by
      simp only [AStore.collect, upd_self, ATrace.next]
    rw [this]
    exact h2
  · have : A.collect ⟨t, s, p⟩ as t' = A t' := by simp [AStore.collect, upd, e]
    rw [this]
    exact (S t').frame h3 h4 (h5 t' e).1 (h5 t' e).2 e

theorem sim_collect {ms : MemStore} {A : AStore} (S : Sim ms A) (id : SpanID) (as : List Annotation) :
    ∃ ms', ms.collect id as = some ms' ∧ Sim ms' (A.collect id as) := by
  obtain ⟨ms', h1, h2, -⟩ := sim_collect_frame S id as
  exact ⟨ms', h1, h2⟩

theorem sim_step {ms : MemStore} {A : AStore} (S : Sim ms A) (op : StoreOp) :
    ∃ ms', ms.step op = some ms' ∧ Sim ms' (A.step op) := by
  cases op with
  | collect id as => exact sim_collect S id as
  | delete ids => exact ⟨_, rfl, sim_delete S ids⟩

theorem sim_run {ms : MemStore} {A : AStore} (S : Sim ms A) (ops : List StoreOp) :
    ∃ ms', ms.run ops = some ms' ∧ Sim ms' (A.run ops) := by
  induction ops generalizing ms A with
  | nil => exact ⟨ms, rfl, S⟩
  | cons op ops ih =>
    obtain ⟨ms', h1, S'⟩ := sim_step S op
    obtain ⟨ms'', h2, S''⟩ := ih S'
    exact ⟨ms'', by simp [MemStore.run, h1, h2], S''⟩

end Appdash
