import Verif.Proofs.ReadingSteps
import Verif.Proofs.StoreTraces

/-! # What a pointer returned by `Trace` shows later -/

namespace Appdash

open Spec

/-! ## As long as the trace is not deleted -/

/-- Every subtree is unfolded from its own span. -/
theorem Forest.unfold_subtree {label : ID → Span} {sub : ID → List ID} {r tr : Tree} (h : Subtree r tr) :
    ∀ {fuel : Nat} {x : ID}, Forest.unfold label sub fuel x = some tr →
      ∃ k y, k ≤ fuel ∧ Forest.unfold label sub k y = some r := by
  induction h with
  | refl => intro fuel x hu; exact ⟨fuel, x, Nat.le_refl _, hu⟩
  | @child c u _ hc ih =>
    intro fuel x hu
    cases fuel with
    | zero => simp [Forest.unfold] at hu
    | succ fuel =>
      simp only [Forest.unfold] at hu
      split at hu
      · cases hu
      · rename_i ts hts
        injection hu with hu
        subst hu
        have hc' : c ∈ ts := hc
        have : ∃ y, Forest.unfold label sub fuel y = some c := by
          clear hc ih
          generalize sub x = l at hts
          induction l generalizing ts with
          | nil =>
            rw [Forest.mapM_nil_some hts] at hc'
            cases hc'
          | cons y l ihl =>
            obtain ⟨u, us, h1, h2, rfl⟩ := Forest.mapM_cons_some hts
            rcases List.mem_cons.1 hc' with rfl | hc'
            · exact ⟨y, h1⟩
            · exact ihl us hc' h2
        obtain ⟨y, hy⟩ := this
        obtain ⟨k, z, h1, h2⟩ := ih hy
        exact ⟨k, z, by omega, h2⟩

theorem pointer_subtree {ops ops' : List StoreOp} {ms ms' : MemStore} (h : MemStore.new.run ops = some ms)
    (h' : ms.run ops' = some ms') {t : ID} {a : Addr} (ha : ms.tracePtr t = some a) (hk : Keeps t ops') {tr : Tree}
    (hv : ms.view t = .found tr) :
    ∃ tr', ms'.view t = .found tr' ∧ ∀ r, Subtree r tr' → r.span.id.span = tr.span.id.span →
      unfoldNode ms'.heap ms'.next a = some r := by
  obtain ⟨sm, T, S, H, e⟩ := readWhile_stands h ha
  obtain ⟨sm', S', hext⟩ := S.run h' hk
  have I' := (H.more (live t ops')).2.2.2.1
  have hS' : SimT ms' t (some (T.more (live t ops'))) := by
    have := S'.sim t
    rw [S'.at_] at this
    exact this
  obtain ⟨tr', hv', hu'⟩ := view_found hS' I'
  refine ⟨tr', hv', ?_⟩
  intro r hr hs
  have hS : SimT ms t (some T) := by
    have := S.sim t
    rw [S.at_] at this
    exact this
  obtain ⟨tr₀, hv₀, hu⟩ := view_found hS H.2.2.2.1
  rw [hv] at hv₀
  injection hv₀ with hv₀
  subst hv₀
  have hroot : tr.span.id.span = T.root := by rw [Forest.unfold_span _ hu]; rfl
  obtain ⟨k, y, hk', hy⟩ := Forest.unfold_subtree hr hu'
  have hy' : r.span.id.span = y := by rw [Forest.unfold_span _ hy]; rfl
  have : y = T.root := by rw [← hy', hs, hroot]
  subst this
  have hg := hext _ _ e
  have hd : ((T.more (live t ops')).par T.root).isSome = true := by rw [S'.rep.dom, hg]; rfl
  have := unfoldNode_eq S'.rep ms'.next T.root hd
  rw [Rep.addr_eq hg, Forest.unfold_mono _ hy _ hk'] at this
  exact this

/-! ## Once the trace is deleted -/

/-- The node is in no map of the store. -/
def Dead (ms : MemStore) (a : Addr) : Prop := a < ms.next ∧ ∀ t, ¬ InMap ((ms.span.get t).getD []) a

theorem delete_fields : ∀ (ids : List ID) (ms : MemStore), (ms.delete ids).heap = ms.heap ∧ (ms.delete ids).next = ms.next
  | [], _ => ⟨rfl, rfl⟩
  | _ :: ids, _ => delete_fields ids _

theorem delete_span : ∀ (ids : List ID) (ms : MemStore) (t : ID),
    (ms.delete ids).span.get t = if t ∈ ids then none else ms.span.get t
  | [], ms, t => by simp [MemStore.delete]
  | i :: ids, ms, t => by
    rw [MemStore.delete, delete_span ids _ t]
    by_cases h : t ∈ ids
    · simp [h]
    · by_cases hi : t = i
      · subst hi
        simp [h, AMap.get_del_self]
      · simp only [h, List.mem_cons, hi, false_or, if_false]
        exact AMap.get_del_ne _ (Ne.symm hi)

theorem Dead.delete {ms : MemStore} {a : Addr} (D : Dead ms a) (ids : List ID) : Dead (ms.delete ids) a := by
  refine ⟨by rw [(delete_fields ids ms).2]; exact D.1, fun t => ?_⟩
  rw [delete_span]
  split
  · rintro ⟨s, hs⟩; cases hs
  · exact D.2 t

theorem Dead.collect {ms ms' : MemStore} {A : AStore} {f : ID → List Entry} (S : Sim ms A) (H : HSim A f) {id : SpanID}
    {as : List Annotation} (h : ms.collect id as = some ms') {a : Addr} (D : Dead ms a) :
    Dead ms' a ∧ ms'.heap a = ms.heap a := by
  obtain ⟨ms1, h1, -, -, hn⟩ := sim_collect_frame S id as
  rw [h] at h1
  injection h1 with h1
  subst h1
  have hlast := collectSteps_last h
  cases hx : ((ms.span.get id.trace).getD []).get id.span with
  | some x =>
    have hm : ms.collectSteps id as = [{ ms with heap := heapUpd ms.heap x { ms.heap x with anns := (ms.heap x).anns ++ as } }] := by
      simp only [MemStore.collectSteps, hx]
    rw [hm] at hlast
    change _ = ms' at hlast
    have hax : a ≠ x := by
      rintro rfl
      exact D.2 _ ⟨_, hx⟩
    rw [← hlast]
    exact ⟨D, by simp [heapUpd, hax]⟩
  | none =>
    obtain ⟨-, M⟩ := new_call (as := as) S H hx
    have hne : ms.collectSteps id as ≠ [] := by
      simp only [MemStore.collectSteps, hx]
      simp [MemStore.attachSteps]
    have hmem : ms' ∈ ms.collectSteps id as := by
      rw [← hlast]
      cases hl : ms.collectSteps id as with
      | nil => exact absurd hl hne
      | cons y l =>
        rw [List.getLastD_cons, List.getLastD_eq_getLast?]
        cases hl' : l.getLast? with
        | none => simp
        | some z => exact List.mem_cons_of_mem _ (List.mem_of_getLast? hl')
    obtain ⟨M1, M2⟩ := M ms' hmem
    have hna : a ≠ ms.next := Nat.ne_of_lt D.1
    have hnot : ¬ InMap (((ms.span.get id.trace).getD []).set id.span ms.next) a := by
      rintro ⟨s, hs⟩
      rw [AMap.get_set] at hs
      split at hs
      · injection hs with hs; exact hna hs.symm
      · exact D.2 _ ⟨s, hs⟩
    refine ⟨⟨Nat.lt_of_lt_of_le D.1 hn, fun t => ?_⟩, ?_⟩
    · rw [M2, AMap.get_set]
      split
      · exact hnot
      · exact D.2 t
    · rw [M1.other a hnot]
      simp [heapUpd, hna]

theorem Dead.run {a : Addr} : ∀ {ops : List StoreOp} {ms ms' : MemStore} {A : AStore} {f : ID → List Entry}, Sim ms A → HSim A f →
    ms.run ops = some ms' → Dead ms a → ms'.heap a = ms.heap a
  | [], ms, ms', _, _, _, _, h, _ => by
    simp only [MemStore.run] at h
    injection h with h
    rw [h]
  | op :: ops, ms, ms', A, f, S, H, h, D => by
    obtain ⟨m, hm, S'⟩ := sim_step S op
    simp only [MemStore.run, hm] at h
    have key : Dead m a ∧ m.heap a = ms.heap a := by
      cases op with
      | collect id as => exact Dead.collect S H hm D
      | delete ids =>
        have : ms.delete ids = m := by
          simp only [MemStore.step] at hm
          injection hm
        subst this
        exact ⟨D.delete ids, by rw [(delete_fields ids ms).1]⟩
    rw [Dead.run S' (H.step op) h key.1, key.2]

theorem pointer_frozen {ops ops' ops'' : List StoreOp} {ms ms₁ ms₂ : MemStore} {ids : List ID} {t : ID} {a : Addr}
    (h : MemStore.new.run ops = some ms) (ha : ms.tracePtr t = some a) (h₁ : ms.run ops' = some ms₁) (hk : Keeps t ops')
    (ht : t ∈ ids) (h₂ : ms₁.run (.delete ids :: ops'') = some ms₂) (fuel : Nat) :
    unfoldNode ms₂.heap fuel a = unfoldNode ms₁.heap fuel a := by
  obtain ⟨sm, T, S, H, e⟩ := readWhile_stands h ha
  obtain ⟨sm', S', hext⟩ := S.run h₁ hk
  have R := S'.rep
  have HS : HSim ((AStore.empty.run ops).run ops') _ := HSim.run (HSim.run (f := fun _ => []) (A := AStore.empty) (fun _ => rfl) ops) ops'
  simp only [MemStore.run, MemStore.step] at h₂
  have Sd : Sim (ms₁.delete ids) (((AStore.empty.run ops).run ops').step (.delete ids)) := sim_delete S'.sim ids
  have HD := HS.step (.delete ids)
  have hf := delete_fields ids ms₁
  have dead : ∀ x, InMap sm' x → Dead (ms₁.delete ids) x := by
    rintro x ⟨s, hs⟩
    refine ⟨by rw [hf.2]; exact R.lt s x hs, fun t' => ?_⟩
    rw [delete_span]
    split
    · rintro ⟨s', hs'⟩; cases hs'
    · rename_i hn
      intro ⟨s', hs'⟩
      have h1 := ((old_nodes S'.sim HS t').1 s' x hs').2.1
      obtain ⟨p, -, hid⟩ := R.id s x hs
      rw [hid] at h1
      exact hn (by rw [← h1]; exact ht)
  apply unfoldNode_congr (P := InMap sm')
  · intro x hx
    rw [Dead.run Sd HD h₂ (dead x hx), hf.1]
  · rintro x ⟨s, hs⟩ c hc
    rw [R.sub s x hs, List.mem_map] at hc
    obtain ⟨c', hc', rfl⟩ := hc
    exact ⟨c', R.get_of_dom (R.closed s c' hc')⟩
  · exact ⟨_, hext _ _ e⟩

end Appdash
