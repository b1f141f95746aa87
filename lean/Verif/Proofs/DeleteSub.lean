import Verif.Model.DeleteSub
import Verif.Spec.DeleteSub
import Verif.Proofs.StoreHist

/-! # Deleting a span from a trace -/

namespace Appdash
open Spec

/-! ## The loop -/

theorem removeLoop_absent {tr : Addr} (todo i : Nat) (arr : List Addr) (len : Nat) (h : ∀ j, i ≤ j → j < i + todo → arr[j]? ≠ some tr) :
    removeLoop tr todo i arr len = some (arr, len) := by
  induction todo generalizing i with
  | zero => rfl
  | succ todo ih =>
    rw [removeLoop, if_neg (h i (by omega) (by omega))]
    exact ih (i + 1) (fun j h1 h2 => h j (by omega) (by omega))

theorem removeLoop_front {tr : Addr} (pre rest : List Addr) (hp : tr ∉ pre) (i : Nat) (done : List Addr) (hi : done.length = i) :
    removeLoop tr (pre ++ rest).length i (done ++ pre ++ rest) (done ++ pre ++ rest).length =
      removeLoop tr rest.length (i + pre.length) (done ++ pre ++ rest) (done ++ pre ++ rest).length := by
  induction pre generalizing i done with
  | nil => simp
  | cons p pre ih =>
    simp only [List.mem_cons, not_or] at hp
    rw [List.cons_append, List.length_cons, removeLoop, if_neg]
    · have := ih hp.2 (i + 1) (done ++ [p]) (by simp [hi])
      simp only [List.append_assoc, List.cons_append, List.nil_append] at this
      rw [List.append_assoc, List.cons_append, this, List.length_cons]
      congr 1
      omega
    · subst hi
      simp only [List.append_assoc, List.cons_append]
      rw [List.getElem?_append_right (by omega)]
      simp only [Nat.sub_self, List.getElem?_cons_zero, Option.some.injEq]
      exact fun e => hp.1 e.symm

theorem removeLoop_eq (tr : Addr) (cs : List Addr) (hn : cs.Nodup) :
    ∃ arr len, removeLoop tr cs.length 0 cs cs.length = some (arr, len) ∧ arr.take len = cs.filter fun c => decide (c ≠ tr) := by
  by_cases hm : tr ∈ cs
  · obtain ⟨pre, post, rfl⟩ := List.append_of_mem hm
    have hd := List.nodup_append.1 hn
    have hp : tr ∉ pre := fun h => hd.2.2 tr h tr (by simp) rfl
    have hq : tr ∉ post := (List.nodup_cons.1 hd.2.1).1
    have hf := removeLoop_front pre (tr :: post) hp 0 [] rfl
    simp only [List.nil_append, Nat.zero_add] at hf
    rw [hf, List.length_cons, removeLoop, if_pos (by rw [List.getElem?_append_right (by omega)]; simp)]
    rw [if_pos (by simp)]
    have e1 : (pre ++ tr :: post).take pre.length = pre := by simp
    have e2 : ((pre ++ tr :: post).take (pre ++ tr :: post).length).drop (pre.length + 1) = post := by
      rw [List.take_length, List.drop_append, List.drop_eq_nil_of_le (by omega)]
      simp
    rw [e1, e2]
    refine ⟨_, _, removeLoop_absent _ _ _ _ ?_, ?_⟩
    · intro j h1 h2 he
      have hj := List.mem_of_getElem? he
      have hin : tr ∈ (pre ++ tr :: post).drop ((pre ++ tr :: post).length - 1) := by
        rcases List.mem_append.1 hj with h | h
        · rcases List.mem_append.1 h with h | h
          · exact absurd h hp
          · exact absurd h hq
        · exact h
      cases post with
      | nil => simp only [List.length_nil] at h2; omega
      | cons x xs =>
        have : (pre ++ tr :: x :: xs).length - 1 = (pre ++ [tr]).length + xs.length := by simp; omega
        rw [this, show pre ++ tr :: x :: xs = (pre ++ [tr]) ++ (x :: xs) by simp, List.drop_append] at hin
        rcases List.mem_append.1 hin with h | h
        · rw [List.drop_eq_nil_of_le (by omega)] at h
          cases h
        · exact hq (List.mem_of_mem_drop h)
    · rw [List.filter_append, List.filter_cons]
      simp only [ne_eq, not_true_eq_false, decide_false, Bool.false_eq_true, if_false]
      rw [List.filter_eq_self.2, List.filter_eq_self.2]
      · have : (pre ++ tr :: post).length - 1 = (pre ++ post).length := by simp
        rw [this, List.take_left']
        rfl
      · intro a ha
        simp only [decide_not, Bool.not_eq_eq_eq_not, Bool.not_true, decide_eq_false_iff_not]
        rintro rfl
        exact hq ha
      · intro a ha
        simp only [decide_not, Bool.not_eq_eq_eq_not, Bool.not_true, decide_eq_false_iff_not]
        rintro rfl
        exact hp ha
  · refine ⟨cs, cs.length, removeLoop_absent _ _ _ _ ?_, ?_⟩
    · intro j _ _ he
      exact hm (List.mem_of_getElem? he)
    · rw [List.take_length]
      symm
      rw [List.filter_eq_self]
      intro a ha
      simp only [decide_not, Bool.not_eq_eq_eq_not, Bool.not_true, decide_eq_false_iff_not]
      rintro rfl
      exact hm ha

/-! ## The trees -/

theorem clearSpans_eq (s : ID) (ts : List Tree) : clearSpans s ts = ts.map (clearSpan s) := by
  induction ts with
  | nil => rfl
  | cons t ts ih => rw [clearSpans, ih]; rfl

theorem delSub_mapM_some {α β : Type} {f g : α → Option β} {F : β → β} {l : List α} {r : List β} (h : l.mapM f = some r)
    (hfg : ∀ x ∈ l, ∀ y, f x = some y → g x = some (F y)) : l.mapM g = some (r.map F) := by
  induction l generalizing r with
  | nil => have := Forest.mapM_nil_some h; subst this; rfl
  | cons x l ih =>
    obtain ⟨y, ys, h1, h2, rfl⟩ := Forest.mapM_cons_some h
    rw [List.mapM_cons, hfg x (by simp) y h1, ih h2 (fun z hz => hfg z (by simp [hz]))]
    rfl

theorem unfold_clear {α : Type} {label : α → Span} {sub : α → List α} {s : ID} {fuel : Nat} {a : α} {tr : Tree}
    (h : Forest.unfold label sub fuel a = some tr) :
    Forest.unfold (fun x => { label x with annotations := if (label x).id.span = s then [] else (label x).annotations }) sub fuel a =
      some (clearSpan s tr) := by
  induction fuel generalizing a tr with
  | zero => simp [Forest.unfold] at h
  | succ fuel ih =>
    simp only [Forest.unfold] at h ⊢
    cases hm : (sub a).mapM (Forest.unfold label sub fuel) with
    | none => simp [hm] at h
    | some ts =>
      rw [hm] at h
      simp only [Option.some.injEq] at h
      subst h
      rw [delSub_mapM_some hm (fun x _ y hy => ih hy), clearSpan, clearSpans_eq]

theorem mapM_congr_mem {α β : Type} {f g : α → Option β} {l : List α} (h : ∀ x ∈ l, f x = g x) : l.mapM f = l.mapM g := by
  induction l with
  | nil => rfl
  | cons x l ih =>
    rw [List.mapM_cons, List.mapM_cons, h x (by simp), ih (fun y hy => h y (by simp [hy]))]

/-- A change below the root is not seen by other spans. -/
theorem unfold_off_root {α : Type} [DecidableEq α] {label : α → Span} {sub sub' : α → List α} {root : α} (hr : ∀ p, root ∉ sub p)
    (hs : ∀ a, a ≠ root → sub' a = sub a) (fuel : Nat) {a : α} (ha : a ≠ root) :
    Forest.unfold label sub' fuel a = Forest.unfold label sub fuel a := by
  induction fuel generalizing a with
  | zero => rfl
  | succ fuel ih =>
    simp only [Forest.unfold, hs a ha]
    rw [mapM_congr_mem (fun c hc => ih (a := c) (fun e => hr a (e ▸ hc)))]

theorem mapM_filter_some {α β : Type} {f : α → Option β} {p : α → Bool} {q : β → Bool} {l : List α} {r : List β} (h : l.mapM f = some r)
    (hpq : ∀ x ∈ l, ∀ y, f x = some y → q y = p x) : (l.filter p).mapM f = some (r.filter q) := by
  induction l generalizing r with
  | nil => have := Forest.mapM_nil_some h; subst this; rfl
  | cons x l ih =>
    obtain ⟨y, ys, h1, h2, rfl⟩ := Forest.mapM_cons_some h
    have ih := ih h2 (fun z hz => hpq z (by simp [hz]))
    have hq := hpq x (by simp) y h1
    rw [List.filter_cons, List.filter_cons, hq]
    split
    · rw [List.mapM_cons, h1, ih]
      rfl
    · exact ih

theorem unfold_without {label : ID → Span} {sub : ID → List ID} {root : ID} (hr : ∀ p, root ∉ sub p) (hl : ∀ x, (label x).id.span = x) {s : ID}
    {fuel : Nat} {tr : Tree} (h : Forest.unfold label sub fuel root = some tr) :
    Forest.unfold label (upd sub root ((sub root).filter fun c => decide (c ≠ s))) fuel root = some (withoutChild s tr) := by
  cases fuel with
  | zero => simp [Forest.unfold] at h
  | succ fuel =>
    simp only [Forest.unfold] at h ⊢
    cases hm : (sub root).mapM (Forest.unfold label sub fuel) with
    | none => simp [hm] at h
    | some ts =>
      rw [hm] at h
      simp only [Option.some.injEq] at h
      subst h
      have e : upd sub root ((sub root).filter fun c => decide (c ≠ s)) root = (sub root).filter fun c => decide (c ≠ s) := by
        simp [upd]
      rw [e, mapM_congr_mem (g := Forest.unfold label sub fuel) (fun c hc => unfold_off_root hr (fun a ha => upd_ne _ _ ha) fuel
        (by
          rintro rfl
          exact hr c (List.mem_of_mem_filter hc)))]
      rw [mapM_filter_some (q := fun t => decide (t.span.id.span ≠ s)) hm (fun x _ y hy => by
        rw [Forest.unfold_span _ hy, hl])]
      rfl

/-! ## The heap -/

theorem Rep.clear {h : Addr → Node} {n : Nat} {t : ID} {sm : AMap ID Addr} {T : ATrace} (R : Rep h n t sm T) {s : ID} {a : Addr}
    (hs : sm.get s = some a) :
    Rep (heapUpd h a { h a with anns := [] }) n t sm { T with anns := upd T.anns s [] } := by
  refine ⟨R.dom, R.lt, ?_, ?_, ?_, R.closed⟩
  · intro x b hb
    obtain ⟨q, hq, hi⟩ := R.id x b hb
    refine ⟨q, hq, ?_⟩
    simp only [heapUpd]
    split
    · rename_i e; subst e; exact hi
    · exact hi
  · intro x b hb
    simp only [heapUpd, upd]
    by_cases e : x = s
    · subst e
      rw [hs] at hb
      injection hb with hb
      subst hb
      simp
    · have : b ≠ a := fun e' => e (R.inj hb (e' ▸ hs))
      simp only [this, if_false, e]
      exact R.anns x b hb
  · intro x b hb
    have := R.sub x b hb
    simp only [heapUpd]
    split
    · rename_i e; subst e; exact this
    · exact this

theorem filter_addr {h : Addr → Node} {n : Nat} {t : ID} {sm : AMap ID Addr} {T : ATrace} (R : Rep h n t sm T) {s : ID} {a : Addr}
    (hs : sm.get s = some a) (cs : List ID) (hcs : ∀ c ∈ cs, (T.par c).isSome = true) :
    (cs.map (addrOf sm)).filter (fun c => decide (c ≠ a)) = (cs.filter fun c => decide (c ≠ s)).map (addrOf sm) := by
  rw [List.filter_map]
  congr 1
  apply List.filter_congr
  intro c hc
  simp only [Function.comp]
  refine decide_eq_decide.2 (not_congr ⟨fun e => ?_, fun e => ?_⟩)
  · have := R.get_of_dom (hcs c hc)
    rw [e] at this
    exact R.inj this hs
  · rw [e]; exact Rep.addr_eq hs

theorem addr_nodup {h : Addr → Node} {n : Nat} {t : ID} {sm : AMap ID Addr} {T : ATrace} (R : Rep h n t sm T) (cs : List ID)
    (hcs : ∀ c ∈ cs, (T.par c).isSome = true) (hn : cs.Nodup) : (cs.map (addrOf sm)).Nodup := by
  induction cs with
  | nil => simp
  | cons c cs ih =>
    rw [List.nodup_cons] at hn
    rw [List.map_cons, List.nodup_cons]
    refine ⟨fun hm => ?_, ih (fun x hx => hcs x (by simp [hx])) hn.2⟩
    obtain ⟨x, hx, e⟩ := List.mem_map.1 hm
    have h1 := R.get_of_dom (hcs c (by simp))
    have h2 := R.get_of_dom (hcs x (by simp [hx]))
    rw [e] at h2
    rw [R.inj h1 h2] at hn
    exact hn.1 hx

theorem view_of_rep {ms : MemStore} {t : ID} {sm : AMap ID Addr} {ra : Addr} {T : ATrace} (R : Rep ms.heap ms.next t sm T)
    (h1 : ms.trace.get t = some ra) (h2 : sm.get T.root = some ra) {tr : Tree}
    (h : Forest.unfold (T.label t) T.sub ms.next T.root = some tr) : ms.view t = .found tr := by
  unfold MemStore.view MemStore.tracePtr
  have := unfoldNode_eq R ms.next T.root (by rw [R.dom, h2]; rfl)
  rw [h, Rep.addr_eq h2] at this
  rw [h1]
  simp only [this]

/-- The effect on the trace of the span. -/
theorem deleteSub_effect {ms : MemStore} {t : ID} {T : ATrace} (S : SimT ms t (some T)) (I : AInv T) {tr : Tree} (hv : ms.view t = .found tr)
    {s : SpanID} (ht : s.trace = t) (hs : (T.par s.span).isSome = true) (only : Bool) :
    ∃ ms', ms.deleteSub s only = some (ms', true) ∧
      ms'.view t = .found (if only then clearSpan s.span tr else withoutChild s.span (clearSpan s.span tr)) ∧
      ms'.next = ms.next ∧ (∀ u, ms'.trace.get u = ms.trace.get u) ∧ ∀ a, a < ms.next → (ms.heap a).id.trace ≠ t → ms'.heap a = ms.heap a := by
  obtain ⟨tr0, v1, v2⟩ := view_found S I
  rw [hv] at v1
  cases v1
  obtain ⟨sm, ra, h1, h2, h3, R⟩ := S
  have hg := R.get_of_dom hs
  have R1 := R.clear hg
  have hlab : ∀ x, ({ T with anns := upd T.anns s.span [] } : ATrace).label t x =
      { T.label t x with annotations := if (T.label t x).id.span = s.span then [] else (T.label t x).annotations } := by
    intro x
    simp only [ATrace.label, upd]
    rfl
  have u1 : Forest.unfold (({ T with anns := upd T.anns s.span [] } : ATrace).label t) T.sub ms.next T.root = some (clearSpan s.span tr) := by
    rw [funext hlab]
    exact unfold_clear v2
  have hfr : ∀ b, (ms.heap b).id.trace ≠ t → b ≠ addrOf sm s.span := by
    rintro b hne rfl
    obtain ⟨p, -, hi⟩ := R.id _ _ hg
    rw [hi] at hne
    exact hne rfl
  subst ht
  cases only with
  | true =>
    refine ⟨{ ms with heap := heapUpd ms.heap (addrOf sm s.span) { ms.heap (addrOf sm s.span) with anns := [] } }, ?_, ?_, rfl, fun _ => rfl, ?_⟩
    · unfold MemStore.deleteSub
      simp only [h1, hg, if_true]
    · exact view_of_rep (ms := { ms with heap := heapUpd ms.heap (addrOf sm s.span) { ms.heap (addrOf sm s.span) with anns := [] } })
        R1 h2 h3 u1
    · intro b _ hne
      simp only [heapUpd, if_neg (hfr b hne)]
  | false =>
    have hsubR : ((heapUpd ms.heap (addrOf sm s.span) { ms.heap (addrOf sm s.span) with anns := [] }) ra).sub =
        (T.sub T.root).map (addrOf sm) := R1.sub _ _ h3
    have hcl : ∀ c ∈ T.sub T.root, (T.par c).isSome = true := fun c hc => I.dom_c _ c hc
    obtain ⟨arr, len, l1, l2⟩ := removeLoop_eq (addrOf sm s.span) _ (addr_nodup R _ hcl (I.wf.nodup _))
    rw [filter_addr R hg _ hcl] at l2
    have R2 := (R1.setSub h3 ((T.sub T.root).filter fun c => decide (c ≠ s.span)) (fun c hc => hcl c (List.mem_of_mem_filter hc)))
    refine ⟨MemStore.setSub { ms with
        heap := heapUpd ms.heap (addrOf sm s.span) { ms.heap (addrOf sm s.span) with anns := [] }
        span := ms.span.set s.trace (sm.del s.span) } ra (arr.take len), ?_, ?_, ?_, ?_, ?_⟩
    · unfold MemStore.deleteSub
      simp only [h1, hg, h2, Bool.false_eq_true, if_false]
      rw [hsubR, l1]
    · refine view_of_rep (T := ATrace.setSub { T with anns := upd T.anns s.span [] } T.root
        ((T.sub T.root).filter fun c => decide (c ≠ s.span))) (sm := sm) (ra := ra) ?_ ?_ ?_ ?_
      · have := R2.1
        rw [← l2] at this
        exact this
      · exact h2
      · exact h3
      · simp only [Bool.false_eq_true, if_false]
        exact unfold_without I.wf.rootless (fun x => rfl) u1
    · rfl
    · intro u; rfl
    · intro b _ hne
      have h4 : b ≠ ra := by
        rintro rfl
        obtain ⟨p, -, hi⟩ := R.id _ _ h3
        rw [hi] at hne
        exact hne rfl
      simp only [MemStore.setSub, heapUpd, if_neg (hfr b hne), if_neg h4]

theorem delSub_view_other {ms ms' : MemStore} {A : AStore} (S : Sim ms A) {u t : ID} (hu : u ≠ t) (hA : ∀ T, A u = some T → AInv T)
    (hn : ms'.next = ms.next) (ht : ∀ u, ms'.trace.get u = ms.trace.get u)
    (hf : ∀ a, a < ms.next → (ms.heap a).id.trace ≠ t → ms'.heap a = ms.heap a) : ms'.view u = ms.view u := by
  have Su := S u
  cases hAu : A u with
  | none =>
    rw [hAu] at Su
    have h1 : ms.trace.get u = none := Su.1
    simp only [MemStore.view, MemStore.tracePtr, ht, h1]
  | some T =>
    rw [hAu] at Su
    obtain ⟨tr, v1, v2⟩ := view_found Su (hA T hAu)
    obtain ⟨sm, ra, h1, h2, h3, R⟩ := Su
    rw [v1]
    refine view_of_rep (R.frame (n' := ms'.next) hf (by omega) hu) (by rw [ht]; exact h2) h3 ?_
    rw [hn]
    exact v2

mutual
theorem clearSpan_absent {s : ID} : ∀ (t : Tree), (∀ sp ∈ t.spans, sp.id.span ≠ s) → clearSpan s t = t
  | .node sp ts, h => by
    rw [clearSpan, if_neg (h sp (by simp [Tree.spans])), clearSpans_absent ts (fun x hx => h x (by simp [Tree.spans, hx]))]
theorem clearSpans_absent {s : ID} : ∀ (ts : List Tree), (∀ sp ∈ Tree.spansList ts, sp.id.span ≠ s) → clearSpans s ts = ts
  | [], _ => rfl
  | t :: ts, h => by
    rw [clearSpans, clearSpan_absent t (fun x hx => h x (by simp [Tree.spansList, hx])),
      clearSpans_absent ts (fun x hx => h x (by simp [Tree.spansList, hx]))]
end

theorem spansList_append (l r : List Tree) : Tree.spansList (l ++ r) = Tree.spansList l ++ Tree.spansList r := by
  induction l with
  | nil => rfl
  | cons t l ih => simp [Tree.spansList, ih]

end Appdash
