import Verif.Proofs.ReadingSteps

/-!
# Facts about reading in the middle of calls that leave the root in its place
-/

namespace Appdash

open Spec

/-! ## Paths below the root -/

/-- A path of children, on which only the last node may be `r`. -/
inductive Below (h : Addr → Node) (r : Addr) : Addr → Addr → Prop
  | refl (a : Addr) : Below h r a a
  | step {a c y : Addr} : a ≠ r → c ∈ (h a).sub → Below h r c y → Below h r a y

/-- A path of children that begins at `r` and does not return there. -/
def FromRoot (h : Addr → Node) (r y : Addr) : Prop := y = r ∨ ∃ c ∈ (h r).sub, Below h r c y

/-- The nodes of a trace are found under their identifiers, and their children are nodes of the trace. -/
def NodesOf (h : Addr → Node) (sm : AMap ID Addr) : Prop :=
  ∀ s a, sm.get s = some a → (h a).id.span = s ∧ ∀ c ∈ (h a).sub, InMap sm c

/-- The children of the nodes are still there, except those of `r`. -/
def GrowsBut (r : Addr) (sm : AMap ID Addr) (h h' : Addr → Node) : Prop :=
  ∀ a, InMap sm a → a ≠ r → ∀ c ∈ (h a).sub, c ∈ (h' a).sub

/-- The children of the nodes are still there. -/
def Grows (sm : AMap ID Addr) (h h' : Addr → Node) : Prop :=
  ∀ a, InMap sm a → ∀ c ∈ (h a).sub, c ∈ (h' a).sub

theorem Grows.but {sm : AMap ID Addr} {h h' : Addr → Node} (g : Grows sm h h') (r : Addr) : GrowsBut r sm h h' :=
  fun a ha _ => g a ha

theorem Below.grow {h h' : Addr → Node} {r : Addr} {sm : AMap ID Addr} (N : NodesOf h sm) (g : GrowsBut r sm h h') {a y : Addr}
    (b : Below h r a y) : InMap sm a → Below h' r a y := by
  induction b with
  | refl a => intro _; exact .refl a
  | step h1 h2 _ ih =>
    rintro ⟨s, hs⟩
    exact .step h1 (g _ ⟨s, hs⟩ h1 _ h2) (ih ((N s _ hs).2 _ h2))

theorem FromRoot.grow {h h' : Addr → Node} {r : Addr} {sm : AMap ID Addr} (N : NodesOf h sm) (g : Grows sm h h') (hr : InMap sm r) {y : Addr}
    (b : FromRoot h r y) : FromRoot h' r y := by
  rcases b with rfl | ⟨c, hc, b⟩
  · exact Or.inl rfl
  · obtain ⟨s, hs⟩ := hr
    exact Or.inr ⟨c, g r ⟨s, hs⟩ c hc, b.grow N (g.but r) ((N s r hs).2 c hc)⟩

/-- Successive states in which nodes get children, and only `r` may lose some; the nodes `Y` can be reached all the time. -/
inductive GrowTrail (r : Addr) (Y : Addr → Prop) : (Addr → Node) → AMap ID Addr → List MemStore → Prop
  | nil {h : Addr → Node} {sm : AMap ID Addr} : GrowTrail r Y h sm []
  | cons {h : Addr → Node} {sm sm' : AMap ID Addr} {m : MemStore} {l : List MemStore} : (∀ s a, sm.get s = some a → sm'.get s = some a) →
      NodesOf m.heap sm' → GrowsBut r sm h m.heap → (∀ y, Y y → FromRoot m.heap r y) → GrowTrail r Y m.heap sm' l → GrowTrail r Y h sm (m :: l)

theorem GrowTrail.weaken {r : Addr} {Y : Addr → Prop} {h h' : Addr → Node} {sm sm' : AMap ID Addr} {l : List MemStore}
    (T : GrowTrail r Y h' sm' l) (hs : ∀ s a, sm.get s = some a → sm'.get s = some a) (g : GrowsBut r sm h h') : GrowTrail r Y h sm l := by
  cases T with
  | nil => exact .nil
  | cons h1 h2 h3 h4 h5 =>
    exact .cons (fun s a h => h1 s a (hs s a h)) h2 (fun a ⟨s, ha⟩ hr c hc => h3 a ⟨s, hs s a ha⟩ hr c (g a ⟨s, ha⟩ hr c hc)) h4 h5

theorem GrowTrail.suffix {r : Addr} {Y : Addr → Prop} {h : Addr → Node} {sm : AMap ID Addr} {l l' : List MemStore}
    (T : GrowTrail r Y h sm l) (hs : l' <:+ l) : GrowTrail r Y h sm l' := by
  induction T with
  | nil => rw [List.suffix_nil.1 hs]; exact .nil
  | cons h1 h2 h3 h4 h5 ih =>
    rcases List.suffix_cons_iff.1 hs with rfl | hs
    · exact .cons h1 h2 h3 h4 h5
    · exact (ih hs).weaken h1 h3

/-! ## What a walk meets -/

theorem walks_below {r : Addr} {Y : Addr → Prop} {l l' : List MemStore} {as : List Addr} {ts : List Tree} (h : Walks l as ts l') :
    ∀ {h₀ : Addr → Node} {sm : AMap ID Addr}, GrowTrail r Y h₀ sm l → NodesOf h₀ sm → (∀ a ∈ as, InMap sm a) →
      ∀ a ∈ as, ∀ s y, Below h₀ r a y → sm.get s = some y → ∃ sp ∈ Tree.spansList ts, sp.id.span = s := by
  induction h with
  | nil l => intro _ _ _ _ _ a ha; cases ha
  | @cons m₁ m₂ l l₁ l₂ l₃ l₄ a as ts us h1 h2 h3 h4 ih3 ih4 =>
    intro h₀ sm T N has x hx s y hb hy
    have T1 := T.suffix h1
    have T2 := T1.suffix h2
    have T3 := T2.suffix (walks_suffix h3)
    rcases List.mem_cons.1 hx with rfl | hx
    · cases T1 with
      | @cons _ _ sm1 _ _ a1 a2 a3 a4 a5 =>
      cases T2 with
      | @cons _ _ sm2 _ _ b1 b2 b3 b4 b5 =>
      cases hb with
      | refl => exact ⟨_, by rw [mem_spansList_cons, Tree.spans]; exact Or.inl (List.mem_cons_self ..), (a2 s _ (a1 s _ hy)).1⟩
      | @step _ c _ q1 q2 q3 =>
        have hx := has x (List.mem_cons_self ..)
        obtain ⟨sx, hsx⟩ := hx
        have T2r : GrowTrail r Y m₂.heap sm2 (m₂ :: l₂) := .cons (fun _ _ h => h) b2 (fun _ _ _ _ h => h) b4 b5
        obtain ⟨sp, hsp, e⟩ := ih3 T2r b2 (fun z hz => (b2 sx x (b1 sx x hsx)).2 z hz) c (b3 x ⟨sx, hsx⟩ q1 c q2) s y
          (q3.grow N b3 ((N sx x hsx).2 c q2)) (b1 s y hy)
        exact ⟨sp, by rw [mem_spansList_cons, Tree.spans]; exact Or.inl (List.mem_cons_of_mem _ hsp), e⟩
    · obtain ⟨sp, hsp, e⟩ := ih4 T3 N (fun z hz => has z (List.mem_cons_of_mem _ hz)) x hx s y hb hy
      exact ⟨sp, by rw [mem_spansList_cons]; exact Or.inr hsp, e⟩

theorem walks_root {r : Addr} {Y : Addr → Prop} {l l' : List MemStore} {tr : Tree} (h : Walks l [r] [tr] l') {h₀ : Addr → Node}
    {sm : AMap ID Addr} (T : GrowTrail r Y h₀ sm l) (hr : InMap sm r) {s : ID} {y : Addr} (hy : Y y) (hs : sm.get s = some y) :
    ∃ sp ∈ tr.spans, sp.id.span = s := by
  generalize has : [r] = as at h
  generalize hts : [tr] = ts at h
  cases h with
  | nil => cases has
  | @cons m₁ m₂ l l₁ l₂ l₃ l₄ a as ts us h1 h2 h3 h4 =>
    injection has with e1 e2
    subst e1 e2
    injection hts with e1 e2
    subst e1 e2
    have T1 := T.suffix h1
    have T2 := T1.suffix h2
    cases T1 with
    | @cons _ _ sm1 _ _ a1 a2 a3 a4 a5 =>
    cases T2 with
    | @cons _ _ sm2 _ _ b1 b2 b3 b4 b5 =>
    rcases b4 y hy with rfl | ⟨c, hc, hb⟩
    · exact ⟨_, by rw [Tree.spans]; exact List.mem_cons_self .., (a2 s _ (a1 s _ hs)).1⟩
    · obtain ⟨sr, hsr⟩ := hr
      have T2r : GrowTrail r Y m₂.heap sm2 (m₂ :: l₂) := .cons (fun _ _ h => h) b2 (fun _ _ _ _ h => h) b4 b5
      obtain ⟨sp, hsp, e⟩ := walks_below h3 T2r b2 (fun z hz => (b2 sr r (b1 sr r hsr)).2 z hz) c hc s y hb (b1 s y hs)
      exact ⟨sp, by rw [Tree.spans]; exact List.mem_cons_of_mem _ hsp, e⟩

/-! ## The states of a call -/

/-- Everything needed of a state to go on from it. -/
structure Ready (r : Addr) (Y : Addr → Prop) (sm : AMap ID Addr) (h : Addr → Node) : Prop where
  nodes : NodesOf h sm
  root : InMap sm r
  reach : ∀ y, Y y → FromRoot h r y

theorem Ready.next {r : Addr} {Y : Addr → Prop} {sm sm' : AMap ID Addr} {h h' : Addr → Node} (R : Ready r Y sm h)
    (hs : ∀ s a, sm.get s = some a → sm'.get s = some a) (g : Grows sm h h') (N : NodesOf h' sm') : Ready r Y sm' h' :=
  ⟨N, R.root.imp fun _ h => hs _ _ h, fun y hy => (R.reach y hy).grow R.nodes g R.root⟩

theorem Ready.cons {r : Addr} {Y : Addr → Prop} {sm sm' : AMap ID Addr} {h : Addr → Node} {m : MemStore} (R : Ready r Y sm h)
    (hs : ∀ s a, sm.get s = some a → sm'.get s = some a) (g : Grows sm h m.heap) (N : NodesOf m.heap sm') {l : List MemStore}
    (T : Ready r Y sm' m.heap → GrowTrail r Y m.heap sm' l) : GrowTrail r Y h sm (m :: l) :=
  .cons hs N (g.but r) (R.next hs g N).reach (T (R.next hs g N))

theorem appendSub_grows (ms : MemStore) (p : Addr) (cs : List Addr) (sm : AMap ID Addr) : Grows sm ms.heap (ms.appendSub p cs).heap := by
  intro a _ c hc
  show c ∈ (if a = p then { ms.heap p with sub := (ms.heap p).sub ++ cs } else ms.heap a).sub
  split
  · rename_i e
    subst e
    exact List.mem_append_left _ hc
  · exact hc

theorem insert_grows (ms : MemStore) (root x : Addr) (sm : AMap ID Addr) : Grows sm ms.heap (ms.insert root x).heap := by
  unfold MemStore.insert
  split
  · exact appendSub_grows _ _ _ _
  · exact appendSub_grows _ _ _ _

theorem Ready.appendEach {r : Addr} {Y : Addr → Prop} {sm : AMap ID Addr} {p : Addr} {rest : List MemStore} : ∀ {cs : List Addr} {ms : MemStore},
    Ready r Y sm ms.heap → (∀ m ∈ ms.appendEach p cs, NodesOf m.heap sm) →
    (Ready r Y sm ((ms.appendEach p cs).getLastD ms).heap → GrowTrail r Y ((ms.appendEach p cs).getLastD ms).heap sm rest) →
    GrowTrail r Y ms.heap sm (ms.appendEach p cs ++ rest)
  | [], _, R, _, T => T R
  | c :: cs, ms, R, N, T => by
    rw [MemStore.appendEach, List.cons_append]
    refine R.cons (fun _ _ h => h) (appendSub_grows _ _ _ _) (N _ (List.mem_cons_self ..)) ?_
    intro R1
    refine R1.appendEach (fun m hm => N m (List.mem_cons_of_mem _ hm)) ?_
    rw [MemStore.appendEach, List.getLastD_cons] at T
    exact T

/-- States in which the nodes of the trace are as before. -/
theorem Ready.same {r : Addr} {Y : Addr → Prop} {sm : AMap ID Addr} {h : Addr → Node} {l rest : List MemStore} (R : Ready r Y sm h)
    (e : ∀ m ∈ l, ∀ a, InMap sm a → m.heap a = h a) (T : GrowTrail r Y h sm rest) : GrowTrail r Y h sm (l ++ rest) := by
  induction l with
  | nil => exact T
  | cons m l ih =>
    have em := e m (List.mem_cons_self ..)
    refine R.cons (fun _ _ h => h) ?_ ?_ ?_
    · intro a ha c hc
      rw [em a ha]
      exact hc
    · intro s a ha
      rw [em a ⟨s, ha⟩]
      exact R.nodes s a ha
    · intro _
      refine (ih (fun m hm => e m (List.mem_cons_of_mem _ hm))).weaken (fun _ _ h => h) ?_
      intro a ha _ c hc
      rw [em a ha] at hc
      exact hc

theorem Weak.nodes {t : ID} {D L : List Entry} {sm : AMap ID Addr} {m : MemStore} (W : Weak t D L sm m) : NodesOf m.heap sm := by
  intro s a ha
  obtain ⟨p, -, hid⟩ := W.id_ s a ha
  refine ⟨by rw [hid], ?_⟩
  intro c hc
  obtain ⟨s', -, h, -⟩ := W.sub s a ha c hc
  exact ⟨s', h⟩

/-- The states of a call that collects a new span and leaves the root in its place. -/
theorem collect_states {ms : MemStore} {id : SpanID} {as : List Annotation} {r : Addr}
    (hn : ((ms.span.get id.trace).getD []).get id.span = none) (ht : ms.trace.get id.trace = some r) (hr : r < ms.next)
    (hroot : id.parent ≠ 0) (hpar : (ms.heap r).id.parent ≠ id.span) :
    ∃ m cs ds, m.heap = heapUpd ms.heap ms.next { id := id, anns := as, sub := [] } ∧
      ms.collectSteps id as = m :: m :: m.insert r ms.next :: ((m.insert r ms.next).appendEach ms.next cs ++
        [(((m.insert r ms.next).appendEach ms.next cs).getLastD (m.insert r ms.next)).setSub r ds]) := by
  refine ⟨{ ms with
      heap := heapUpd ms.heap ms.next { id := id, anns := as, sub := [] }
      next := ms.next + 1
      span := ms.span.set id.trace (((ms.span.get id.trace).getD []).set id.span ms.next) }, ?_, ?_, rfl, ?_⟩
  case refine_3 =>
    have hne : ms.next ≠ r := (Nat.ne_of_lt hr).symm
    have hr0 : id.isRoot = false := by simpa [SpanID.isRoot] using hroot
    unfold MemStore.collectSteps
    dsimp only
    rw [hn]
    dsimp only
    unfold MemStore.attachSteps
    dsimp only
    rw [ht]
    dsimp only
    unfold MemStore.fixRootSteps
    rw [if_neg]
    · dsimp only
      rw [if_pos ⟨hr0, hne⟩, if_pos hne, List.getLastD_nil, List.getLastD_cons, List.getLastD_nil, MemStore.reattachSteps]
      rfl
    · rintro ⟨-, h | h⟩
      · rw [hr0] at h; cases h
      · apply hpar
        simpa [heapUpd, Nat.ne_of_lt hr] using h

theorem good_before {L K : List Entry} {s : ID} (hg : Good (L ++ K) s) : Good L s := by
  have anc : ∀ {a b : ID}, Ancestor L a b → Ancestor (L ++ K) a b := by
    intro a b h
    induction h with
    | base h => exact .base ⟨declaredParent_more _ h.1 _, h.2.imp fun _ h => ⟨List.mem_append_left _ h.1, h.2⟩⟩
    | step _ h ih => exact ih.step ⟨declaredParent_more _ h.1 _, h.2.imp fun _ h => ⟨List.mem_append_left _ h.1, h.2⟩⟩
  intro a ha hh
  exact hg a (ha.imp id anc) (anc hh)

theorem below_of_steps {t : ID} {h : Addr → Node} {n : Nat} {sm : AMap ID Addr} {T : ATrace} (R : Rep h n t sm T) (hw : ∀ p, T.root ∉ T.sub p)
    {r : Addr} (hr : sm.get T.root = some r) : ∀ (k : Nat) {x s : ID} {a y : Addr}, x ≠ T.root → Forest.Steps T.sub k x s → sm.get x = some a →
      sm.get s = some y → Below h r a y
  | 0, x, s, a, y, _, hs, hx, hy => by
    cases hs
    rw [hx] at hy
    injection hy with hy
    subst hy
    exact .refl a
  | k + 1, x, s, a, y, hne, hs, hx, hy => by
    obtain ⟨c, hc, hs'⟩ := hs.head
    have hg := R.get_of_dom (R.closed x c hc)
    refine .step ?_ (c := addrOf sm c) ?_ (below_of_steps R hw hr k (by rintro rfl; exact hw x hc) hs' hg hy)
    · rintro rfl
      obtain ⟨p, -, h1⟩ := R.id _ _ hx
      obtain ⟨q, -, h2⟩ := R.id _ _ hr
      rw [h1] at h2
      injection h2 with _ h2
      exact hne h2
    · rw [R.sub x a hx]
      exact List.mem_map_of_mem hc

theorem ready_of_stands {t : ID} {ms : MemStore} {A : AStore} {sm : AMap ID Addr} {T : ATrace} (S : Stands t ms A sm T) {L K : List Entry}
    (H : HRep (some T) L) {r : Addr} (hr : sm.get T.root = some r) {Y : Addr → Prop}
    (hY : ∀ y, Y y → ∃ s, sm.get s = some y ∧ Collected L s ∧ Good (L ++ K) s) : Ready r Y sm ms.heap := by
  have R := S.rep
  have hw := H.2.2.2.1.wf.rootless
  refine ⟨(weak_of_stands S H (D := L) fun _ h => h).nodes, ⟨_, hr⟩, ?_⟩
  intro y hy
  obtain ⟨s, hs, hc, hg⟩ := hY y hy
  obtain ⟨n, hst⟩ := reachable_of_good H hc (good_before hg)
  cases n with
  | zero =>
    cases hst
    rw [hr] at hs
    injection hs with hs
    exact Or.inl hs.symm
  | succ n =>
    obtain ⟨c, hc', hst'⟩ := hst.head
    have hg := R.get_of_dom (R.closed _ c hc')
    refine Or.inr ⟨addrOf sm c, ?_, below_of_steps R hw hr n (by rintro rfl; exact hw _ hc') hst' hg hs⟩
    rw [R.sub _ _ hr]
    exact List.mem_map_of_mem hc'

theorem more_one (T : ATrace) (e : Entry) : T.more [e] = T.collect e.1.span e.1.parent e.2 := rfl

theorem moments_grow {t : ID} {Y : Addr → Prop} {M : List Entry} {r : Addr} : ∀ (ops : List StoreOp) {ms : MemStore} {A : AStore}
    {sm : AMap ID Addr} {T : ATrace} {f : ID → List Entry}, Stands t ms A sm T → HSim A f → Keeps t ops → KeepsRoot T (live t ops) →
    sm.get T.root = some r → M = f t ++ live t ops → (∀ y, Y y → ∃ s, sm.get s = some y ∧ Collected (f t) s ∧ Good M s) →
    GrowTrail r Y ms.heap sm (ms.moments ops)
  | [], ms, A, sm, T, f, S, H, hk, hroot, hr, hM, hY => .nil
  | op :: ops, ms, A, sm, T, f, S, H, hk, hroot, hr, hM, hY => by
    obtain ⟨ms1, h1, S1⟩ := sim_run S.sim [op]
    have hstep : ms.step op = some ms1 := by
      simp only [MemStore.run] at h1
      split at h1
      · cases h1
      · rename_i m hm
        injection h1 with h1
        rw [hm, h1]
    have hk1 : Keeps t [op] := fun ids hi => hk ids (by simp at hi; simp [hi])
    have hk' : Keeps t ops := fun ids hi => hk ids (List.mem_cons_of_mem _ hi)
    obtain ⟨sm1, S', ext⟩ := S.run h1 hk1
    have H' := H.step op
    have HT : HRep (some T) (f t) := by
      have := H t
      rw [S.at_] at this
      exact this
    have W := weak_of_stands S HT (D := f t) (fun _ h => h)
    have R0 := S.rep
    have hlive := live_cons hk
    rw [hlive] at hroot hM
    have hf : liveStep t (f t) op = f t ++ live t [op] := by
      cases op with
      | collect id as =>
        by_cases e : id.trace = t
        · simp [live, liveStep, e]
        · simp [live, liveStep, e]
      | delete ids =>
        have : t ∉ ids := hk1 ids (by simp)
        simp [live, liveStep, this]
    have HT' : HRep (some (T.more (live t [op]))) (f t ++ live t [op]) := by
      have := H' t
      rw [show A.step op = A.run [op] from rfl, S'.at_] at this
      simpa only [hf] using this
    obtain ⟨k1, k2, -, -⟩ := keepsRoot_more HT.2.2.2.1 hroot
    have hr' : sm1.get (T.more (live t [op])).root = some r := by rw [k1]; exact ext _ _ hr
    have coll : ∀ {s}, Collected (f t) s → Collected (f t ++ live t [op]) s := fun ⟨e, he, h⟩ => ⟨e, List.mem_append_left _ he, h⟩
    have hY' : ∀ y, Y y → ∃ s, sm1.get s = some y ∧ Collected (f t ++ live t [op]) s ∧ Good M s := by
      intro y hy
      obtain ⟨s, a, b, c⟩ := hY y hy
      exact ⟨s, ext _ _ a, coll b, c⟩
    have Rd : Ready r Y sm ms.heap := ready_of_stands (K := live t [op] ++ live t ops) S HT hr (by rw [← hM]; exact hY)
    have Rd' : Ready r Y sm1 ms1.heap :=
      ready_of_stands (K := live t ops) S' HT' hr' (by rw [List.append_assoc, ← hM]; exact hY')
    have rest : GrowTrail r Y ms1.heap sm1 (ms1.moments ops) :=
      moments_grow (M := M) ops S' H' hk' k2 hr' (by simp only [hf]; rw [List.append_assoc]; exact hM) (by simp only [hf]; exact hY')
    rw [MemStore.moments, opSteps_last hstep]
    have other : (∀ id as, op = .collect id as → id.trace ≠ t) → GrowTrail r Y ms.heap sm (ms.opSteps op ++ ms1.moments ops) := by
      intro ho
      have O := op_weak_other S.sim H W (fun s a ha => R0.lt s a ha) (fun ids e => hk1 ids (by simp [e])) ho
      refine Rd.same (fun m hm a ⟨s, hs⟩ => (O m hm).2 s a hs) ?_
      refine rest.weaken ext ?_
      rintro a ⟨s, hs⟩ _ c hc
      rw [(O ms1 (opSteps_mem hstep)).2 s a hs]
      exact hc
    cases op with
    | delete ids => exact other (fun id' as' h => by cases h)
    | collect id as =>
      by_cases e : id.trace = t
      · obtain ⟨sm', c1, c2⟩ := collect_weak (D := f t) S H rfl (fun _ h => h) e as
        have hsm : sm' = sm1 := by
          have := (c2 ms1 (opSteps_mem hstep)).get
          rw [S'.sm_] at this
          injection this with this
          exact this.symm
        subst hsm
        have hsp : (ms.span.get id.trace).getD [] = sm := by rw [e, S.sm_]; rfl
        cases hn : sm.get id.span with
        | some x =>
          have hl : ms.opSteps (.collect id as) = [{ ms with heap := heapUpd ms.heap x { ms.heap x with anns := (ms.heap x).anns ++ as } }] := by
            simp only [MemStore.opSteps, MemStore.collectSteps, hsp, hn]
          have hm1 : ms1 = { ms with heap := heapUpd ms.heap x { ms.heap x with anns := (ms.heap x).anns ++ as } } := by
            have := opSteps_last hstep
            rw [hl] at this
            exact this.symm
          rw [hl, ← hm1, List.singleton_append]
          refine .cons c1 Rd'.nodes ?_ Rd'.reach rest
          intro a _ _ c hc
          rw [hm1]
          simp only [heapUpd]
          split
          · rename_i e; subst e; exact hc
          · exact hc
        | none =>
          have hl1 : live t [StoreOp.collect id as] = [(id, as)] := by simp [live, liveStep, e]
          rw [hl1] at hroot
          have hnp : T.par id.span = none := by
            have := R0.dom id.span
            rw [hn] at this
            simpa using this
          obtain ⟨q1, q2⟩ : id.parent ≠ 0 ∧ T.par T.root ≠ some id.span := by
            rcases hroot (id, as) (by simp) with h | h
            · rw [hnp] at h; cases h
            · exact h
          obtain ⟨p, hp, hid⟩ := R0.id _ _ hr
          have htr : ms.trace.get id.trace = some r := by
            have := S.sim t
            rw [S.at_] at this
            obtain ⟨sm2, ra, g1, g2, g3, -⟩ := this
            rw [S.sm_] at g1
            injection g1 with g1
            subst g1
            rw [hr] at g3
            injection g3 with g3
            rw [e, g2, g3]
          obtain ⟨m, cs, ds, m1, m2⟩ := collect_states (as := as) (hsp ▸ hn) htr (R0.lt _ _ hr) q1
            (by rw [hid]; rintro rfl; exact q2 hp)
          have hlast := opSteps_last hstep
          rw [MemStore.opSteps] at hlast ⊢
          rw [m2] at c2 hlast ⊢
          simp only [List.getLastD_cons, getLastD_concat] at hlast
          have N := fun x hx => (c2 x hx).nodes
          simp only [List.cons_append, List.append_assoc, List.nil_append]
          have g0 : Grows sm ms.heap m.heap := by
            rintro a ⟨s, hs⟩ c hc
            rw [m1]
            simpa [heapUpd, Nat.ne_of_lt (R0.lt s a hs)] using hc
          refine Rd.cons c1 g0 (N _ (by simp)) fun R1 => ?_
          refine R1.cons (fun _ _ h => h) (fun _ _ _ h => h) (N _ (by simp)) fun R2 => ?_
          refine R2.cons (fun _ _ h => h) (insert_grows _ _ _ _) (N _ (by simp)) fun R3 => ?_
          refine R3.appendEach (fun x hx => N x (by simp [hx])) fun R4 => ?_
          rw [hlast]
          refine .cons (fun _ _ h => h) Rd'.nodes ?_ Rd'.reach rest
          intro a _ har c hc
          rw [← hlast]
          simpa [MemStore.setSub, heapUpd, har] using hc
      · exact other (fun id' as' h => by injection h with h; rw [← h]; exact e)

end Appdash
