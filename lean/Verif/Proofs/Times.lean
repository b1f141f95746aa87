import Verif.Spec.Times
import Verif.Proofs.EventSpan

/-!
# Lemmas about `Trace.TimespanEvent`
-/

namespace Appdash

theorem unixNano_ordinary {t : GoTime} (h1 : -2 ^ 63 ≤ t.instant) (h2 : t.instant < 2 ^ 63) : t.unixNano = t.instant := by
  unfold GoTime.unixNano
  apply Int.bmod_eq_of_le <;> omega

theorem isZero_iff {t : GoTime} : t.isZero = true ↔ t.instant = GoTime.zero.instant := by
  simp [GoTime.isZero]

theorem zero_isZero : GoTime.zero.isZero = true := by decide

/-- The loop from a state that holds bounds of the spans seen so far. -/
theorem findTraceTimesLoop_bounds (seen : List (GoTime × GoTime)) (ts : List (Bytes × GoTime × GoTime)) (s e : GoTime)
    (hb : Bounds seen s e) (hs : ∀ p ∈ seen, p.1.Ordinary ∧ -2 ^ 63 ≤ p.2.instant ∧ p.2.instant < 2 ^ 63)
    (ht : ∀ p ∈ ts, p.2.1.Ordinary ∧ -2 ^ 63 ≤ p.2.2.instant ∧ p.2.2.instant < 2 ^ 63) :
    ∃ s' e', findTraceTimesLoop s e ts = (s', e') ∧ Bounds (seen ++ ts.map Prod.snd) s' e' ∧ s'.isZero = false := by
  induction ts generalizing seen s e with
  | nil =>
    refine ⟨s, e, rfl, by simpa using hb, ?_⟩
    obtain ⟨p, hp, rfl⟩ := List.mem_map.1 hb.start_mem
    exact Bool.eq_false_iff.2 fun h => (hs p hp).1.1 (isZero_iff.1 h)
  | cons p ts ih =>
    obtain ⟨n, ps, pe⟩ := p
    obtain ⟨q, hq, hqs⟩ := List.mem_map.1 hb.start_mem
    obtain ⟨r, hr, hre⟩ := List.mem_map.1 hb.end_mem
    have hso : s.Ordinary := hqs ▸ (hs q hq).1
    have heo : -2 ^ 63 ≤ e.instant ∧ e.instant < 2 ^ 63 := hre ▸ (hs r hr).2
    have hp := ht (n, ps, pe) (List.mem_cons_self ..)
    have hz : s.isZero = false := Bool.eq_false_iff.2 fun h => hso.1 (isZero_iff.1 h)
    simp only [findTraceTimesLoop, hz, Bool.false_eq_true, if_false]
    rw [unixNano_ordinary hp.1.2.1 hp.1.2.2, unixNano_ordinary hso.2.1 hso.2.2, unixNano_ordinary hp.2.1 hp.2.2,
      unixNano_ordinary heo.1 heo.2]
    have key : Bounds (seen ++ [(ps, pe)]) (if ps.instant < s.instant then ps else s)
        (if pe.instant > e.instant then pe else e) := by
      refine ⟨?_, ?_, ?_, ?_⟩
      · split
        · simp
        · simp only [List.map_append, List.mem_append]; exact .inl hb.start_mem
      · intro x hx
        rcases List.mem_append.1 hx with hx | hx
        · have := hb.start_le x hx
          split <;> omega
        · simp only [List.mem_singleton] at hx
          subst hx
          split
          · exact Int.le_refl _
          · simp only; omega
      · split
        · simp
        · simp only [List.map_append, List.mem_append]; exact .inl hb.end_mem
      · intro x hx
        rcases List.mem_append.1 hx with hx | hx
        · have := hb.le_end x hx
          split <;> omega
        · simp only [List.mem_singleton] at hx
          subst hx
          split
          · exact Int.le_refl _
          · simp only; omega
    obtain ⟨s', e', h1, h2, h3⟩ := ih (seen ++ [(ps, pe)]) _ _ key
      (by
        intro x hx
        rcases List.mem_append.1 hx with hx | hx
        · exact hs x hx
        · simp only [List.mem_singleton] at hx
          subst hx; exact hp)
      (fun x hx => ht x (List.mem_cons_of_mem _ hx))
    exact ⟨s', e', h1, by simpa using h2, h3⟩

/-- `findTraceTimes` of ordinary times. -/
theorem findTraceTimes_ordinary (ts : List (Bytes × GoTime × GoTime))
    (ht : ∀ p ∈ ts, p.2.1.Ordinary ∧ -2 ^ 63 ≤ p.2.2.instant ∧ p.2.2.instant < 2 ^ 63) (hne : ts ≠ []) :
    ∃ s e, findTraceTimes ts = (s, e, true) ∧ Bounds (ts.map Prod.snd) s e := by
  cases ts with
  | nil => exact absurd rfl hne
  | cons p ts =>
    obtain ⟨n, ps, pe⟩ := p
    have hp := ht (n, ps, pe) (List.mem_cons_self ..)
    obtain ⟨s, e, h1, h2, h3⟩ := findTraceTimesLoop_bounds [(ps, pe)] ts ps pe
      ⟨by simp, by simp, by simp, by simp⟩ (by intro x hx; simp only [List.mem_singleton] at hx; subst hx; exact hp)
      (fun x hx => ht x (List.mem_cons_of_mem _ hx))
    refine ⟨s, e, ?_, by simpa using h2⟩
    simp only [findTraceTimes, findTraceTimesLoop, zero_isZero, if_true, h1, h3]
    rfl

/-- Equal events have equal times. -/
theorem span_same (E : EventType) {v w : GVal} (h : v.Same w) : E.span v = E.span w := by
  unfold EventType.span
  cases E.times with
  | none => rfl
  | some ij =>
    obtain ⟨i, j⟩ := ij
    cases h with
    | scalar | map | seq => rfl
    | struct vs ws hl hf =>
      simp only [GVal.fields]
      have key : ∀ k : Nat, (vs[k]? = none ∧ ws[k]? = none) ∨ ∃ a b, vs[k]? = some a ∧ ws[k]? = some b ∧ a.Same b := by
        intro k
        by_cases hk : k < vs.length
        · right
          have hk' : k < ws.length := hl ▸ hk
          exact ⟨vs[k], ws[k], List.getElem?_eq_getElem hk, List.getElem?_eq_getElem hk',
            hf k _ _ (List.getElem?_eq_getElem hk) (List.getElem?_eq_getElem hk')⟩
        · left
          have hk' : ¬ k < ws.length := hl ▸ hk
          exact ⟨List.getElem?_eq_none (Nat.not_lt.1 hk), List.getElem?_eq_none (Nat.not_lt.1 hk')⟩
      rcases key i with ⟨h1, h2⟩ | ⟨a, b, h1, h2, h3⟩
      · rw [h1, h2]
      · rcases key j with ⟨h4, h5⟩ | ⟨c, d, h4, h5, h6⟩
        · rw [h1, h2, h4, h5]; cases h3 <;> rfl
        · rw [h1, h2, h4, h5]; 
          cases h3 with
          | scalar x => cases x <;> cases h6 <;> rfl
          | struct | map | seq => rfl

/-- The timespan events of recorded events. -/
theorem spanTimes_recorded (reg : Registry) (ps : Pieces) (h : ps.Recorded reg) :
    spanTimes reg ps.all = some (.ok (ps.events.filterMap fun e => (e.1.span e.2).map fun p => (e.1.schema, p))) := by
  obtain ⟨out, h1, h2⟩ := pieces_unmarshal reg ps h
  have hreg := h.registered
  simp only [spanTimes, h1, Option.some.injEq, Except.ok.injEq]
  generalize ps.events = evs at h2 hreg
  clear h1 h
  induction h2 with
  | nil => rfl
  | @cons e o evs out he _ ih =>
    have hE : AMap.get reg o.1 = some e.1 := by rw [he.1]; exact hreg e (List.mem_cons_self ..)
    have ih := ih fun x hx => hreg x (List.mem_cons_of_mem _ hx)
    have : asTimespan reg o = (e.1.span e.2).map fun p => (e.1.schema, p) := by
      simp only [asTimespan, hE, ← span_same e.1 he.2]
      cases hs : e.1.span e.2 with
      | none => rfl
      | some p => simp [he.1]
    rw [List.filterMap_cons, List.filterMap_cons, this, ih]

end Appdash
