import Verif.Proofs.StoreTraces
import Verif.Spec.Limit

/-! # Invariants of `LimitStore` -/

namespace Appdash

open Spec

/-- Overwriting the slot at the cursor and advancing it is: drop the oldest, append the newest. -/
theorem ring_advance {r : List ID} {n : Nat} (hn : n < r.length) {h : ID} {rest : List ID}
    (hr : r.drop n ++ r.take n = h :: rest) (x : ID) :
    r[n]? = some h ∧
    (r.set n x).drop ((n + 1) % r.length) ++ (r.set n x).take ((n + 1) % r.length) = rest ++ [x] := by
  obtain ⟨a, b, c, rfl, ha⟩ : ∃ a b c, r = a ++ c :: b ∧ a.length = n :=
    ⟨r.take n, r.drop (n + 1), r[n], by simp, by simp; omega⟩
  subst ha
  have e1 : (a ++ c :: b).drop a.length = c :: b := by simp
  have e2 : (a ++ c :: b).take a.length = a := by simp
  rw [e1, e2, List.cons_append] at hr
  injection hr with h1 h2
  subst h1
  refine ⟨by simp, ?_⟩
  have e3 : (a ++ c :: b).set a.length x = a ++ x :: b := by simp
  rw [e3, ← h2]
  cases b with
  | nil => simp
  | cons y b =>
    have : (a.length + 1) % (a ++ c :: y :: b).length = a.length + 1 := by
      apply Nat.mod_eq_of_lt
      simp
    have e4 : a ++ x :: y :: b = (a ++ [x]) ++ (y :: b) := by simp
    have e5 : a.length + 1 = (a ++ [x]).length := by simp
    rw [this, e4, e5, List.drop_left, List.take_left]
    simp

/-! ## The bound -/

/-- The ring, as it is after the `nil` check. -/
def LimitStore.slots (ls : LimitStore) : List ID := ls.ring.getD (List.replicate ls.max 0)

/-- Every stored or remembered trace has a slot, except possibly trace 0. -/
structure Bounded (max : Nat) (seen : ID → Prop) (ls : LimitStore) : Prop where
  max_eq : ls.max = max
  len : ls.slots.length = max
  next : ls.next < max
  set : ∀ t, (ls.traces.get t).isSome = true → t ∈ ls.slots ∨ t = 0
  fresh : ls.ring = none → ls.traces = []
  run : ∃ uops, MemStore.new.run uops = some ls.under ∧ ∀ t, live t uops ≠ [] → (t ∈ ls.slots ∨ t = 0) ∧ seen t

theorem live_collect (t : ID) (uops : List StoreOp) (id : SpanID) (as : List Annotation) :
    live t (uops ++ [.collect id as]) = if id.trace = t then live t uops ++ [(id, as)] else live t uops := by
  unfold live
  rw [List.foldl_append]
  rfl

theorem live_delete (t : ID) (uops : List StoreOp) (ids : List ID) :
    live t (uops ++ [.delete ids]) = if t ∈ ids then [] else live t uops := by
  unfold live
  rw [List.foldl_append]
  rfl

theorem run_collect {uops : List StoreOp} {ms : MemStore} (h : MemStore.new.run uops = some ms) (id : SpanID)
    (as : List Annotation) :
    ∃ ms', ms.collect id as = some ms' ∧ MemStore.new.run (uops ++ [.collect id as]) = some ms' := by
  obtain ⟨ms', h', -⟩ := sim_run sim_new (uops ++ [.collect id as])
  have e := h'
  rw [run_append, h] at e
  simp only [Option.bind_some, MemStore.run, MemStore.step] at e
  cases hc : ms.collect id as with
  | none => rw [hc] at e; cases e
  | some m => rw [hc] at e; injection e with e; subst e; exact ⟨m, rfl, h'⟩

theorem run_delete {uops : List StoreOp} {ms : MemStore} (h : MemStore.new.run uops = some ms) (ids : List ID) :
    MemStore.new.run (uops ++ [.delete ids]) = some (ms.delete ids) := by
  rw [run_append, h]
  rfl

theorem mem_set_of_ne {l : List ID} {n : Nat} {x y z : ID} (hz : l[n]? = some z) (hy : y ∈ l) (hne : y ≠ z) :
    y ∈ l.set n x := by
  obtain ⟨i, hi, rfl⟩ := List.getElem_of_mem hy
  have : i ≠ n := by
    rintro rfl
    rw [List.getElem?_eq_getElem hi] at hz
    injection hz with hz
    exact hne hz
  rw [List.mem_iff_getElem]
  exact ⟨i, by simpa using hi, by rw [List.getElem_set_ne (Ne.symm this)]⟩

theorem mem_set_self {l : List ID} {n : Nat} (hn : n < l.length) (x : ID) : x ∈ l.set n x := by
  rw [List.mem_iff_getElem]
  exact ⟨n, by simpa using hn, by simp⟩

/-- Admitting a trace into a free or freed slot. -/
theorem Bounded.admit {max : Nat} {seen : ID → Prop} {ls : LimitStore} {ring : List ID} (hm : ls.max = max)
    (hl : ring.length = max) (hn : ls.next < max) {old : ID} (hold : ring[ls.next]? = some old)
    (hset : ∀ t, (ls.traces.get t).isSome = true → (t ∈ ring ∧ t ≠ old) ∨ t = 0) {uops : List StoreOp}
    (hrun : MemStore.new.run uops = some ls.under)
    (hlive : ∀ t, live t uops ≠ [] → ((t ∈ ring ∧ t ≠ old) ∨ t = 0) ∧ seen t) (id : SpanID) (as : List Annotation)
    (hs : seen id.trace) : ∃ ls', ls.admit ring id as = some (ls', false) ∧ Bounded max seen ls' := by
  obtain ⟨ms', e1, e2⟩ := run_collect hrun id as
  refine ⟨_, by simp only [LimitStore.admit, e1]; rfl, ?_⟩
  have hin : id.trace ∈ ring.set ls.next id.trace := mem_set_self (by rw [hl]; exact hn) _
  have hkeep : ∀ t, (t ∈ ring ∧ t ≠ old) ∨ t = 0 → t ∈ ring.set ls.next id.trace ∨ t = 0 := by
    rintro t (⟨h1, h2⟩ | h)
    · exact Or.inl (mem_set_of_ne hold h1 h2)
    · exact Or.inr h
  refine ⟨hm, by simp [LimitStore.slots, hl], ?_, ?_, (by intro h; cases h), uops ++ [.collect id as], e2, ?_⟩
  · simp only [hm]
    exact Nat.mod_lt _ (by omega)
  · intro t ht
    simp only [LimitStore.slots, Option.getD_some]
    rw [AMap.get_set] at ht
    split at ht
    · rename_i e; rw [← e]; exact Or.inl hin
    · exact hkeep t (hset t ht)
  · intro t ht
    simp only [LimitStore.slots, Option.getD_some]
    rw [live_collect] at ht
    by_cases e : id.trace = t
    · rw [← e]; exact ⟨Or.inl hin, hs⟩
    · rw [if_neg e] at ht
      obtain ⟨h1, h2⟩ := hlive t ht
      exact ⟨hkeep t h1, h2⟩

theorem Bounded.collect {max : Nat} {seen : ID → Prop} {ls : LimitStore} (B : Bounded max seen ls) (id : SpanID)
    (as : List Annotation) (fails : Bool) (hs : seen id.trace) :
    ∃ ls' e, ls.collect id as fails = some (ls', e) ∧ Bounded max seen ls' := by
  have hm := B.max_eq
  have hpos : ls.max ≠ 0 := by have := B.next; omega
  -- the state after the nil check
  have main : ∀ ls1 : LimitStore, ls1.max = max → ls1.ring = some ls.slots → ls1.traces = ls.traces →
      ls1.under = ls.under → ls1.next = ls.next →
      ∃ ls' e, ls1.collectRing ls.slots id as fails = some (ls', e) ∧ Bounded max seen ls' := by
    intro ls1 h1 h2 h3 h4 h5
    obtain ⟨uops, r1, r2⟩ := B.run
    have hsl : ls1.slots = ls.slots := by simp [LimitStore.slots, h2]
    unfold LimitStore.collectRing
    rw [h3, h5]
    cases hg : ls.traces.get id.trace with
    | some u =>
      simp only
      obtain ⟨ms', e1, e2⟩ := run_collect r1 id as
      rw [h4, e1]
      refine ⟨_, _, rfl, ⟨h1, ?_, ?_, ?_, ?_, uops ++ [.collect id as], e2, ?_⟩⟩
      · show ls1.slots.length = max; rw [hsl]; exact B.len
      · exact B.next
      · intro t ht
        show t ∈ ls1.slots ∨ t = 0
        rw [hsl]; exact B.set t ht
      · intro h; rw [h2] at h; cases h
      · intro t ht
        show (t ∈ ls1.slots ∨ t = 0) ∧ seen t
        rw [hsl]
        rw [live_collect] at ht
        by_cases e : id.trace = t
        · rw [← e]; exact ⟨B.set _ (by rw [hg]; rfl), hs⟩
        · rw [if_neg e] at ht; exact r2 t ht
    | none =>
      simp only
      have hlt : ls.next < ls.slots.length := by rw [B.len]; exact B.next
      rw [List.getElem?_eq_getElem hlt]
      simp only
      have hold : ls.slots[ls.next]? = some ls.slots[ls.next] := List.getElem?_eq_getElem hlt
      by_cases h0 : ls.slots[ls.next] ≠ 0
      · rw [if_pos h0]
        cases fails with
        | true =>
          refine ⟨_, _, rfl, ⟨h1, ?_, ?_, ?_, ?_, uops, by rw [← h4] at r1; exact r1, ?_⟩⟩
          · show ls1.slots.length = max; rw [hsl]; exact B.len
          · exact B.next
          · intro t ht
            show t ∈ ls1.slots ∨ t = 0
            rw [hsl]
            simp only at ht
            rw [AMap.get_del] at ht
            split at ht
            · cases ht
            · exact B.set t ht
          · intro h
            simp only at h
            rw [h2] at h; cases h
          · intro t ht
            show (t ∈ ls1.slots ∨ t = 0) ∧ seen t
            rw [hsl]
            exact r2 t ht
        | false =>
          have hr : MemStore.new.run (uops ++ [.delete [ls.slots[ls.next]]]) =
              some (ls1.under.delete [ls.slots[ls.next]]) := by rw [h4]; exact run_delete r1 _
          obtain ⟨ls', e, B'⟩ := Bounded.admit (max := max) (seen := seen) (ring := ls.slots)
            (ls := { ls1 with traces := ls.traces.del ls.slots[ls.next], under := ls1.under.delete [ls.slots[ls.next]] })
            h1 B.len (by simp only [h5]; exact B.next) (by simp only [h5]; exact hold)
            (by
              intro t ht
              simp only at ht
              rw [AMap.get_del] at ht
              split at ht
              · cases ht
              · rename_i hne
                exact (B.set t ht).imp (fun h => ⟨h, fun e => hne e.symm⟩) (fun h => h))
            (uops := uops ++ [.delete [ls.slots[ls.next]]]) hr
            (by
              intro t ht
              rw [live_delete] at ht
              split at ht
              · exact absurd rfl ht
              · rename_i hne
                obtain ⟨g1, g2⟩ := r2 t ht
                exact ⟨g1.imp (fun h => ⟨h, fun e => hne (by simp [e])⟩) (fun h => h), g2⟩)
            id as hs
          exact ⟨ls', false, by rw [← e, h5]; rfl, B'⟩
      · rw [if_neg h0]
        have h0 : ls.slots[ls.next] = 0 := not_not.1 h0
        have hkeep : ∀ t, t ∈ ls.slots ∨ t = 0 → (t ∈ ls.slots ∧ t ≠ ls.slots[ls.next]) ∨ t = 0 := by
          intro t ht
          by_cases e : t = 0
          · exact Or.inr e
          · exact Or.inl ⟨ht.resolve_right e, by rw [h0]; exact e⟩
        obtain ⟨ls', e, B'⟩ := Bounded.admit (max := max) (seen := seen) (ring := ls.slots) (ls := ls1)
          h1 B.len (by rw [h5]; exact B.next) (by rw [h5]; exact hold)
          (fun t ht => hkeep t (B.set t (by rw [← h3]; exact ht))) (uops := uops) (by rw [h4]; exact r1)
          (fun t ht => ⟨hkeep t (r2 t ht).1, (r2 t ht).2⟩) id as hs
        exact ⟨ls', false, e, B'⟩
  unfold LimitStore.collect
  rw [if_neg hpos]
  cases hring : ls.ring with
  | none =>
    simp only
    have hs' : List.replicate ls.max (0 : ID) = ls.slots := by simp [LimitStore.slots, hring]
    rw [hs']
    exact main { ls with ring := some ls.slots, traces := [] } hm rfl (B.fresh hring).symm rfl rfl
  | some r =>
    simp only
    have hs' : r = ls.slots := by simp [LimitStore.slots, hring]
    rw [hs']
    exact main ls hm (by rw [hring, ← hs']) rfl rfl rfl

theorem Bounded.new {max : Nat} (hp : 0 < max) (seen : ID → Prop) : Bounded max seen (LimitStore.new max) :=
  ⟨rfl, by simp [LimitStore.slots, LimitStore.new], hp, (by intro t ht; cases ht), fun _ => rfl, [], rfl,
    fun t ht => absurd rfl ht⟩

theorem Bounded.delete {max : Nat} {seen : ID → Prop} {ls : LimitStore} (B : Bounded max seen ls) (ids : List ID) :
    Bounded max seen { ls with under := ls.under.delete ids } := by
  obtain ⟨uops, r1, r2⟩ := B.run
  refine ⟨B.max_eq, B.len, B.next, B.set, B.fresh, uops ++ [.delete ids], run_delete r1 ids, ?_⟩
  intro t ht
  rw [live_delete] at ht
  split at ht
  · exact absurd rfl ht
  · exact r2 t ht

theorem Bounded.run_ops {max : Nat} {seen : ID → Prop} : ∀ (ops : List LimitOp) {ls : LimitStore}, Bounded max seen ls →
    (∀ id as f, LimitOp.collect id as f ∈ ops → seen id.trace) → ∃ ls', ls.run ops = some ls' ∧ Bounded max seen ls'
  | [], ls, B, _ => ⟨ls, rfl, B⟩
  | op :: ops, ls, B, hs => by
    have : ∃ ls1, ls.step op = some ls1 ∧ Bounded max seen ls1 := by
      cases op with
      | collect id as f =>
        obtain ⟨ls', e, h1, h2⟩ := B.collect id as f (hs id as f (by simp))
        exact ⟨ls', by simp [LimitStore.step, h1], h2⟩
      | delete ids => exact ⟨_, rfl, B.delete ids⟩
    obtain ⟨ls1, e1, B1⟩ := this
    obtain ⟨ls2, e2, B2⟩ := run_ops ops B1 (fun id as f h => hs id as f (by simp [h]))
    exact ⟨ls2, by simp [LimitStore.run, e1, e2], B2⟩

theorem Bounded.count {max : Nat} {seen : ID → Prop} {ls : LimitStore} (B : Bounded max seen ls) {ids : List ID}
    (hn : ids.Nodup) (hv : ∀ t ∈ ids, ls.under.view t ≠ .notFound) :
    ids.length ≤ max + 1 ∧ (¬ seen 0 → ids.length ≤ max) := by
  obtain ⟨uops, r1, r2⟩ := B.run
  have hp : ∀ t ∈ ids, (t ∈ ls.slots ∨ t = 0) ∧ seen t := by
    intro t ht
    apply r2
    intro hl
    rcases run_view r1 t with ⟨-, h2⟩ | ⟨h1, -⟩
    · exact hv t ht h2
    · exact h1 hl
  refine ⟨?_, fun h0 => ?_⟩
  · have := (List.subperm_of_subset hn (l₂ := 0 :: ls.slots) (by
      intro t ht
      rcases (hp t ht).1 with h | h <;> simp [h])).length_le
    rw [List.length_cons, B.len] at this
    exact this
  · have := (List.subperm_of_subset hn (l₂ := ls.slots) (by
      intro t ht
      rcases hp t ht with ⟨h | h, h'⟩
      · exact h
      · exact absurd (h ▸ h') h0)).length_le
    rw [B.len] at this
    exact this

/-! ## First in, first out -/

/-- The ring holds the traces of `held` in order; the store holds for each trace the calls that count for it. -/
structure Fifo (max : Nat) (ls : LimitStore) (sp : ID → Limited) : Prop where
  max_eq : ls.max = max
  len : ls.slots.length = max
  next : ls.next < max
  same : ∀ t t', (sp t).held = (sp t').held
  size : (sp 0).held.length ≤ max
  nz : 0 ∉ (sp 0).held
  ring : ls.slots.drop ls.next ++ ls.slots.take ls.next =
    List.replicate (max - (sp 0).held.length) 0 ++ (sp 0).held
  set : ∀ t, (ls.traces.get t).isSome = true ↔ t ∈ (sp 0).held
  nodup : (sp 0).held.Nodup
  fresh : ls.ring = none → ls.traces = []
  out : ∀ t, t ∉ (sp 0).held → (sp t).calls = []
  run : ∃ uops, MemStore.new.run uops = some ls.under ∧ ∀ t, live t uops = (sp t).calls

theorem Fifo.admit {max : Nat} {ls : LimitStore} {ring : List ID} {held rest : List ID} {old : ID} (hm : ls.max = max)
    (hl : ring.length = max) (hn : ls.next < max) (hring : ring.drop ls.next ++ ring.take ls.next = old :: rest)
    (id : SpanID) (as : List Annotation) (hheld : held.length ≤ max)
    (hnew : rest ++ [id.trace] = List.replicate (max - held.length) 0 ++ held) (hnz : 0 ∉ held) (hnd : held.Nodup)
    (hset : ∀ t, (ls.traces.get t).isSome = true ∨ t = id.trace ↔ t ∈ held) {uops : List StoreOp}
    (hrun : MemStore.new.run uops = some ls.under) (sp : ID → Limited) (hh : ∀ t, (sp t).held = held)
    (hout : ∀ t, t ∉ held → (sp t).calls = [])
    (hlive : ∀ t, (if id.trace = t then live t uops ++ [(id, as)] else live t uops) = (sp t).calls) :
    ∃ ls', ls.admit ring id as = some (ls', false) ∧ Fifo max ls' sp := by
  obtain ⟨ms', e1, e2⟩ := run_collect hrun id as
  obtain ⟨-, hr⟩ := ring_advance (by rw [hl]; exact hn) hring id.trace
  refine ⟨_, by simp only [LimitStore.admit, e1]; rfl, ?_⟩
  refine ⟨hm, by simp [LimitStore.slots, hl], ?_, fun t t' => by rw [hh, hh], by rw [hh]; exact hheld,
    by rw [hh]; exact hnz, ?_, ?_, by rw [hh]; exact hnd, (by intro h; cases h), ?_, uops ++ [.collect id as], e2, ?_⟩
  · simp only [hm]; exact Nat.mod_lt _ (by omega)
  · simp only [LimitStore.slots, Option.getD_some, hh]
    rw [← hnew, ← hr, hl, hm]
  · intro t
    rw [hh, ← hset t]
    simp only
    rw [AMap.get_set]
    by_cases e : id.trace = t
    · simp [e]
    · rw [if_neg e]
      have : t ≠ id.trace := fun h => e h.symm
      simp [this]
  · intro t ht; rw [hh] at ht; exact hout t ht
  · intro t; rw [live_collect]; exact hlive t

theorem Fifo.collect {max : Nat} {ls : LimitStore} {sp : ID → Limited} (F : Fifo max ls sp) (id : SpanID)
    (as : List Annotation) (hz : id.trace ≠ 0) :
    ∃ ls', ls.collect id as false = some (ls', false) ∧
      Fifo max ls' (fun t => limitedStep max t (sp t) (.collect id as false)) := by
  have hm := F.max_eq
  have hpos : ls.max ≠ 0 := by have := F.next; omega
  have hheld : ∀ t, (sp t).held = (sp 0).held := fun t => F.same t 0
  have main : ∀ ls1 : LimitStore, ls1.max = max → ls1.ring = some ls.slots → ls1.traces = ls.traces →
      ls1.under = ls.under → ls1.next = ls.next →
      ∃ ls', ls1.collectRing ls.slots id as false = some (ls', false) ∧
        Fifo max ls' (fun t => limitedStep max t (sp t) (.collect id as false)) := by
    intro ls1 h1 h2 h3 h4 h5
    obtain ⟨uops, r1, r2⟩ := F.run
    have hsl : ls1.slots = ls.slots := by simp [LimitStore.slots, h2]
    unfold LimitStore.collectRing
    rw [h3, h5]
    cases hg : ls.traces.get id.trace with
    | some u =>
      have hin : id.trace ∈ (sp 0).held := (F.set _).1 (by rw [hg]; rfl)
      simp only
      obtain ⟨ms', e1, e2⟩ := run_collect r1 id as
      rw [h4, e1]
      refine ⟨_, rfl, ?_⟩
      have hstep : ∀ t, (limitedStep max t (sp t) (.collect id as false)).held = (sp 0).held := by
        intro t
        simp only [limitedStep, hheld t, if_pos hin]
      have hcalls : ∀ t, (limitedStep max t (sp t) (.collect id as false)).calls =
          if id.trace = t then (sp t).calls ++ [(id, as)] else (sp t).calls := by
        intro t
        simp only [limitedStep, hheld t, if_pos hin]
        by_cases e : id.trace = t
        · subst e
          simp [hin]
        · simp only [e, if_false]
          by_cases ht : t ∈ (sp 0).held
          · simp [ht]
          · simp [ht, F.out t ht]
      refine ⟨h1, ?_, F.next, fun t t' => by rw [hstep, hstep], ?_, ?_, ?_, ?_, ?_, ?_, ?_,
        uops ++ [.collect id as], e2, ?_⟩
      · show ls1.slots.length = max; rw [hsl]; exact F.len
      · rw [hstep]; exact F.size
      · rw [hstep]; exact F.nz
      · rw [hstep]
        show ls1.slots.drop ls.next ++ ls1.slots.take ls.next = _
        rw [hsl]; exact F.ring
      · intro t; rw [hstep]; exact F.set t
      · rw [hstep]; exact F.nodup
      · intro h; simp only at h; rw [h2] at h; cases h
      · intro t ht
        rw [hstep] at ht
        rw [hcalls, if_neg (by rintro rfl; exact ht hin)]
        exact F.out t ht
      · intro t
        rw [hcalls, live_collect, r2]
    | none =>
      have hin : id.trace ∉ (sp 0).held := by
        intro h
        have := (F.set _).2 h
        rw [hg] at this
        cases this
      simp only
      have hlt : ls.next < ls.slots.length := by rw [F.len]; exact F.next
      by_cases hlen : (sp 0).held.length < max
      · -- a free slot
        have hstep : ∀ t, (limitedStep max t (sp t) (.collect id as false)).held = (sp 0).held ++ [id.trace] := by
          intro t
          simp only [limitedStep, hheld t, if_neg hin, if_pos hlen]
        have hcalls : ∀ t, (limitedStep max t (sp t) (.collect id as false)).calls =
            if id.trace = t then (sp t).calls ++ [(id, as)] else (sp t).calls := by
          intro t
          simp only [limitedStep, hheld t, if_neg hin, if_pos hlen]
          by_cases e : id.trace = t
          · subst e
            simp [hin, F.out _ hin]
          · simp only [e, if_false]
            have e' : t ≠ id.trace := fun h => e h.symm
            by_cases ht : t ∈ (sp 0).held
            · simp [ht]
            · simp [ht, F.out t ht]
        have hk : max - (sp 0).held.length = (max - (sp 0).held.length - 1) + 1 := by omega
        have hring : ls.slots.drop ls.next ++ ls.slots.take ls.next =
            0 :: (List.replicate (max - (sp 0).held.length - 1) 0 ++ (sp 0).held) := by
          rw [F.ring, hk, List.replicate_succ]; simp
        obtain ⟨hold, -⟩ := ring_advance hlt hring id.trace
        rw [hold]
        simp only [ne_eq, not_true, if_false]
        refine Fifo.admit (held := (sp 0).held ++ [id.trace]) h1 F.len (by rw [h5]; exact F.next)
          (by rw [h5]; exact hring) id as (by simp; omega) ?_ ?_ ?_ ?_ (uops := uops) (by rw [h4]; exact r1) _ hstep
          ?_ ?_
        · have : max - ((sp 0).held ++ [id.trace]).length = max - (sp 0).held.length - 1 := by simp; omega
          rw [this]; simp
        · simp only [List.mem_append, List.mem_singleton]
          rintro (h | h)
          · exact F.nz h
          · exact hz h.symm
        · exact List.nodup_append.2 ⟨F.nodup, by simp, by
            intro a ha b hb
            rw [List.mem_singleton] at hb
            subst hb
            rintro rfl
            exact hin ha⟩
        · intro t; rw [h3, F.set]; simp
        · intro t ht
          simp only [List.mem_append, List.mem_singleton, not_or] at ht
          rw [hcalls, if_neg (fun e => ht.2 e.symm)]
          exact F.out t ht.1
        · intro t; rw [hcalls, r2]
      · -- the oldest is evicted
        have hfull : (sp 0).held.length = max := by have := F.size; omega
        obtain ⟨old, rest, hor⟩ : ∃ old rest, (sp 0).held = old :: rest := by
          cases hc : (sp 0).held with
          | nil => rw [hc] at hfull; simp at hfull; have := F.next; omega
          | cons a l => exact ⟨a, l, rfl⟩
        have hnz : old ≠ 0 := by
          rintro rfl
          exact F.nz (by rw [hor]; simp)
        have hstep : ∀ t, (limitedStep max t (sp t) (.collect id as false)).held = rest ++ [id.trace] := by
          intro t
          simp only [limitedStep, hheld t, if_neg hin, if_neg hlen]
          rw [hor]; rfl
        have hne : old ≠ id.trace := by rintro rfl; exact hin (by rw [hor]; simp)
        have hnd := F.nodup
        rw [hor] at hnd
        have hor' : old ∉ rest := (List.nodup_cons.1 hnd).1
        have hcalls : ∀ t, (limitedStep max t (sp t) (.collect id as false)).calls =
            if id.trace = t then [(id, as)] else if t = old then [] else (sp t).calls := by
          intro t
          have h := hstep t
          simp only [limitedStep, hheld t, if_neg hin, if_neg hlen] at h ⊢
          rw [h]
          by_cases e : id.trace = t
          · subst e
            simp [hin]
          · have e' : t ≠ id.trace := fun h => e h.symm
            simp only [e, if_false]
            by_cases ho : t = old
            · subst ho
              simp [hor', hne]
            · simp only [ho, if_false]
              by_cases hr : t ∈ rest
              · simp [hr]
              · simp only [List.mem_append, hr, List.mem_singleton, e', or_self, if_false]
                exact (F.out t (by rw [hor]; simp [ho, hr])).symm
        have hring : ls.slots.drop ls.next ++ ls.slots.take ls.next = old :: rest := by
          rw [F.ring, hfull, hor]; simp
        obtain ⟨hold, -⟩ := ring_advance hlt hring id.trace
        rw [hold]
        simp only [ne_eq, hnz, not_false_eq_true, if_true, Bool.false_eq_true, if_false]
        refine Fifo.admit (ring := ls.slots) (held := rest ++ [id.trace])
          (ls := { max := ls1.max, under := ls1.under.delete [old], traces := ls.traces.del old, ring := ls1.ring,
                   next := ls.next })
          h1 F.len F.next hring id as ?_ ?_ ?_ ?_ ?_ (uops := uops ++ [.delete [old]])
          (by simp only [h4]; exact run_delete r1 _) _ hstep ?_ ?_
        · have : (old :: rest).length = max := by rw [← hor]; exact hfull
          simp only [List.length_cons] at this
          simp; omega
        · have : max - (rest ++ [id.trace]).length = 0 := by
            have : (old :: rest).length = max := by rw [← hor]; exact hfull
            simp only [List.length_cons] at this
            simp; omega
          rw [this]; simp
        · simp only [List.mem_append, List.mem_singleton]
          rintro (h | h)
          · exact F.nz (by rw [hor]; simp [h])
          · exact hz h.symm
        · exact List.nodup_append.2 ⟨(List.nodup_cons.1 hnd).2, by simp, by
            intro a ha b hb
            rw [List.mem_singleton] at hb
            subst hb
            rintro rfl
            exact hin (by rw [hor]; simp [ha])⟩
        · intro t
          simp only
          rw [AMap.get_del]
          by_cases ho : old = t
          · subst ho
            simp [hor', hne]
          · rw [if_neg ho, F.set, hor]
            have : t ≠ old := fun h => ho h.symm
            simp [this]
        · intro t ht
          simp only [List.mem_append, List.mem_singleton, not_or] at ht
          rw [hcalls, if_neg (fun e => ht.2 e.symm)]
          split
          · rfl
          · rename_i ho
            exact F.out t (by rw [hor]; simp [ho, ht.1])
        · intro t
          rw [hcalls, live_delete, r2]
          by_cases e : id.trace = t
          · subst e
            have : id.trace ∉ [old] := by simp; exact fun h => hne h.symm
            rw [if_pos rfl, if_pos rfl, if_neg this, F.out _ hin]; rfl
          · rw [if_neg e, if_neg e]
            by_cases ho : t = old <;> simp [ho]
  unfold LimitStore.collect
  rw [if_neg hpos]
  cases hring : ls.ring with
  | none =>
    simp only
    have hs' : List.replicate ls.max (0 : ID) = ls.slots := by simp [LimitStore.slots, hring]
    rw [hs']
    exact main { ls with ring := some ls.slots, traces := [] } hm rfl (F.fresh hring).symm rfl rfl
  | some r =>
    simp only
    have hs' : r = ls.slots := by simp [LimitStore.slots, hring]
    rw [hs']
    exact main ls hm (by rw [hring, ← hs']) rfl rfl rfl

theorem Fifo.delete {max : Nat} {ls : LimitStore} {sp : ID → Limited} (F : Fifo max ls sp) (ids : List ID) :
    Fifo max { ls with under := ls.under.delete ids } (fun t => limitedStep max t (sp t) (.delete ids)) := by
  obtain ⟨uops, r1, r2⟩ := F.run
  refine ⟨F.max_eq, F.len, F.next, F.same, F.size, F.nz, F.ring, F.set, F.nodup, F.fresh, ?_,
    uops ++ [.delete ids], run_delete r1 ids, ?_⟩
  · intro t ht
    simp only [limitedStep]
    rw [F.out t ht]
    split <;> rfl
  · intro t
    simp only [limitedStep]
    rw [live_delete, r2]

theorem Fifo.new {max : Nat} (hp : 0 < max) : Fifo max (LimitStore.new max) (fun _ => ⟨[], []⟩) :=
  ⟨rfl, by simp [LimitStore.slots, LimitStore.new], hp, fun _ _ => rfl, Nat.zero_le _, by simp,
    by simp [LimitStore.slots, LimitStore.new], (by intro t; simp [LimitStore.new]), by simp, fun _ => rfl,
    fun _ _ => rfl, [], rfl, fun _ => rfl⟩

theorem Fifo.run_ops {max : Nat} : ∀ (ops : List LimitOp) {ls : LimitStore} {sp : ID → Limited}, Fifo max ls sp →
    (∀ id as f, LimitOp.collect id as f ∈ ops → id.trace ≠ 0 ∧ f = false) →
    ∃ ls', ls.run ops = some ls' ∧ Fifo max ls' (fun t => ops.foldl (limitedStep max t) (sp t))
  | [], ls, sp, F, _ => ⟨ls, rfl, F⟩
  | op :: ops, ls, sp, F, hs => by
    have : ∃ ls1, ls.step op = some ls1 ∧ Fifo max ls1 (fun t => limitedStep max t (sp t) op) := by
      cases op with
      | collect id as f =>
        obtain ⟨hz, rfl⟩ := hs id as f (by simp)
        obtain ⟨ls', h1, h2⟩ := F.collect id as hz
        exact ⟨ls', by simp [LimitStore.step, h1], h2⟩
      | delete ids => exact ⟨_, rfl, F.delete ids⟩
    obtain ⟨ls1, e1, F1⟩ := this
    obtain ⟨ls2, e2, F2⟩ := run_ops ops F1 (fun id as f h => hs id as f (by simp [h]))
    exact ⟨ls2, by simp [LimitStore.run, e1, e2], F2⟩

/-! ## The specification -/

theorem live_collects (t : ID) : ∀ (L : List Entry), (∀ e ∈ L, e.1.trace = t) → ∀ A : List Entry,
    (L.map fun e => StoreOp.collect e.1 e.2).foldl (liveStep t) A = A ++ L
  | [], _, A => by simp
  | e :: L, h, A => by
    simp only [List.map_cons, List.foldl_cons]
    rw [live_collects t L (fun x hx => h x (by simp [hx]))]
    simp [liveStep, h e (by simp)]

theorem limited_calls_trace (max : Nat) (t : ID) : ∀ (ops : List LimitOp) (s : Limited),
    (∀ e ∈ s.calls, e.1.trace = t) → ∀ e ∈ (ops.foldl (limitedStep max t) s).calls, e.1.trace = t
  | [], s, h => h
  | op :: ops, s, h => by
    refine limited_calls_trace max t ops _ ?_
    cases op with
    | collect id as f =>
      have hc : ∀ e ∈ (if id.trace = t then (if t ∈ s.held then s.calls else []) ++ [(id, as)] else s.calls),
          e.1.trace = t := by
        intro e he
        split at he
        · rename_i ht
          rcases List.mem_append.1 he with he | he
          · split at he
            · exact h e he
            · cases he
          · rw [List.mem_singleton] at he; subst he; exact ht
        · exact h e he
      intro e he
      simp only [limitedStep] at he
      generalize (if id.trace ∈ s.held then s.held
        else if s.held.length < max then s.held ++ [id.trace] else s.held.tail ++ [id.trace]) = held at he
      split at he
      · exact hc e he
      · cases he
    | delete ids =>
      intro e he
      simp only [limitedStep] at he
      split at he
      · cases he
      · exact h e he

theorem limited_held_nodup (max : Nat) (hp : 0 < max) (t : ID) : ∀ (ops : List LimitOp) (s : Limited),
    s.held.Nodup → s.held.length ≤ max →
    (ops.foldl (limitedStep max t) s).held.Nodup ∧ (ops.foldl (limitedStep max t) s).held.length ≤ max
  | [], _, h, h' => ⟨h, h'⟩
  | op :: ops, s, h, h' => by
    cases op with
    | delete ids => exact limited_held_nodup max hp t ops _ h h'
    | collect id as f =>
      refine limited_held_nodup max hp t ops _ ?_ ?_
      · simp only [limitedStep]
        split
        · exact h
        · rename_i hn
          have hx : ∀ l : List ID, l.Nodup → (∀ x ∈ l, x ∈ s.held) → (l ++ [id.trace]).Nodup := by
            intro l hl hs
            refine List.nodup_append.2 ⟨hl, by simp, ?_⟩
            intro a ha b hb
            rw [List.mem_singleton] at hb
            subst hb
            rintro rfl
            exact hn (hs _ ha)
          split
          · exact hx _ h (fun _ hx => hx)
          · exact hx _ h.tail (fun _ hx => List.mem_of_mem_tail hx)
      · simp only [limitedStep]
        split
        · exact h'
        · split <;> simp <;> omega

theorem limited_held_calls (max : Nat) (hp : 0 < max) (t : ID) : ∀ (ops : List LimitOp) (s : Limited),
    (∀ ids, LimitOp.delete ids ∉ ops) → (t ∈ s.held ↔ s.calls ≠ []) →
    (t ∈ (ops.foldl (limitedStep max t) s).held ↔ (ops.foldl (limitedStep max t) s).calls ≠ [])
  | [], _, _, h => h
  | op :: ops, s, hd, h => by
    cases op with
    | delete ids => exact absurd (by simp) (hd ids)
    | collect id as f =>
      refine limited_held_calls max hp t ops _ (fun ids hi => hd ids (by simp [hi])) ?_
      simp only [limitedStep]
      split
      · rename_i hin
        by_cases e : id.trace = t
        · subst e; simp [hin]
        · by_cases ht : t ∈ s.held
          · simp only [e, ht, if_true, if_false, true_iff]; exact h.1 ht
          · simp [ht]
      · rename_i hin
        have hx : ∀ l : List ID, (∀ x ∈ l, x ∈ s.held) →
            (t ∈ l ++ [id.trace] ↔ (if t ∈ l ++ [id.trace] then
              (if id.trace = t then (if t ∈ s.held then s.calls else []) ++ [(id, as)] else s.calls) else []) ≠ []) := by
          intro l hl
          by_cases e : id.trace = t
          · subst e; simp
          · by_cases ht : t ∈ l
            · have := h.1 (hl _ ht)
              simp [e, ht, this]
            · have e' : t ≠ id.trace := fun h => e h.symm
              simp [ht, e']
        split
        · exact hx _ (fun _ hx => hx)
        · exact hx _ (fun _ hx => List.mem_of_mem_tail hx)

end Appdash
