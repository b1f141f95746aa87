import Verif.Proofs.ChunkedProgress
import Verif.Proofs.ChunkedOnce

/-!
# Proofs: without a time-out, a flush with many entries keeps others waiting
-/

namespace Appdash.Chunked

/-- No time-out; the underlying collector takes one unit of time. -/
def noTimeout : Timing := ⟨1, 0, 0, 1, 0⟩

/-- Spans for the entries of the long flush. -/
def longSpan (i : Nat) : SpanID := ⟨1, UInt64.ofNat i, 0⟩

theorem enqueue_fresh {P : AMap SpanID (List Annotation)} {d : Delivery} (h : d.1 ∉ P.map Prod.fst) : enqueue P d = P ++ [d] := by
  have : P.get d.1 = none := get_none_of_not_mem fun v hv => h (List.mem_map.2 ⟨_, hv, rfl⟩)
  simp only [enqueue, this, AMap.set_none this]

theorem collect_unbounded {s : State} (hst : s.stopped = false) (d : Delivery) :
    ((s.collect noTimeout.cfg d).1).pending = enqueue s.pending d ∧ ((s.collect noTimeout.cfg d).1).stopped = false ∧
      ((s.collect noTimeout.cfg d).1).flushes = s.flushes ∧ ((s.collect noTimeout.cfg d).1).started = true ∧
      ((s.collect noTimeout.cfg d).1).nextFlush = s.nextFlush ∧
      ((s.collect noTimeout.cfg d).1).history = s.history ++ [.collect d .queued s.lastErr] ∧
      (s.started = true → ((s.collect noTimeout.cfg d).1).bg = s.bg) ∧ (s.started = false → ((s.collect noTimeout.cfg d).1).bg = .waiting) := by
  cases collect_cases noTimeout.cfg s d with
  | refused e => rw [hst] at e; cases e
  | dropped _ e => exact absurd rfl e
  | queued h1 h2 h3 h4 h5 h6 h7 h8 h9 h10 h11 h12 h13 => exact ⟨h4, h10, h8, h11, h9, h6, fun h => (h12 h).1, fun h => (h13 h).1⟩

/-- Many spans are collected at once. -/
theorem many_pending : ∀ n, n < 2 ^ 64 - 1 → ∃ T : Timed, TReachable noTimeout T ∧ T.s.pending.map Prod.fst = (List.range (n + 1)).map longSpan ∧
    T.s.bg = .waiting ∧ T.bgSince = 0 ∧ T.now = 0 ∧ T.s.flushes = [] ∧ T.s.stopped = false ∧ T.s.started = true
  | 0, _ => by
    obtain ⟨h1, h2, h3, h4, _, _, _, h5⟩ := collect_unbounded (s := {}) rfl (longSpan 0, [])
    exact ⟨_, .one (.collect {} (longSpan 0, [])), by rw [h1]; rfl, h5 rfl, rfl, rfl, h3, h2, h4⟩
  | n + 1, hn => by
    obtain ⟨T, a1, a2, a3, a4, a5, a6, a7, a8⟩ := many_pending n (by omega)
    obtain ⟨h1, h2, h3, h4, _, _, h5, _⟩ := collect_unbounded a7 (longSpan (n + 1), [])
    refine ⟨_, a1.step (.collect T (longSpan (n + 1), [])), ?_, (h5 a8).trans a3, ?_, a5, h3.trans a6, h2, h4⟩
    · have hfresh : (longSpan (n + 1), ([] : List Annotation)).1 ∉ T.s.pending.map Prod.fst := by
        rw [a2]
        intro hm
        obtain ⟨i, hi, e⟩ := List.mem_map.1 hm
        rw [List.mem_range] at hi
        have : UInt64.ofNat i = UInt64.ofNat (n + 1) := by
          simp only [longSpan, SpanID.mk.injEq] at e
          exact e.2.1
        have := congrArg UInt64.toNat this
        rw [UInt64.toNat_ofNat', UInt64.toNat_ofNat', Nat.mod_eq_of_lt (by omega), Nat.mod_eq_of_lt (by omega)] at this
        omega
      simp only [h1, enqueue_fresh hfresh, List.map_append, a2, List.range_succ (n := n + 1), List.map_cons, List.map_nil]
    · show (if T.s.started then T.bgSince else T.now) = 0
      rw [if_pos a8, a4]

/-- The flush of the background goroutine takes as long as it has entries. -/
theorem slow_flush : ∀ (n : Nat) (T : Timed) (f : Flush), T.s.flushes = [f] → f.remaining.length = n + 1 → T.s.bg = .flushing f.id → T.since f.id = T.now →
    ∃ T', Inner noTimeout T T' ∧ T'.s.pending = T.s.pending ∧ T'.now = T.now + n
  | 0, T, f, _, _, _, _ => ⟨T, .refl T, rfl, rfl⟩
  | n + 1, T, f, h1, h2, h3, h4 => by
    cases hr : f.remaining with
    | nil => rw [hr] at h2; cases h2
    | cons d rest =>
      rw [hr] at h2
      simp only [List.length_cons, Nat.add_right_cancel_iff] at h2
      have hw : TStep noTimeout T { T with now := T.now + 1 } := by
        refine .wait T 1 ⟨(fun h => by rw [h3] at h; cases h), (fun e h => by rw [h3] at h; cases h), fun g hg => ?_⟩
        rw [h1, List.mem_singleton] at hg
        subst hg
        rw [h4, if_neg (by rw [hr]; simp)]
        exact Nat.le_refl _
      have hs := TStep.send (τ := noTimeout) { T with now := T.now + 1 } f [] [] d [] rest none h1 hr fun h => h.1 rfl
      obtain ⟨T', k1, k2, k3⟩ := slow_flush n _ { f with remaining := [] ++ rest, errs := f.errs ++ (none : Option Err).toList }
        (show (({ T with
            s := { T.s with
              flushes := [] ++ { f with remaining := [] ++ rest, errs := f.errs ++ (none : Option Err).toList } :: []
              history := T.s.history ++ [.send f.id d none] }
            now := T.now + 1
            since := setAt T.since f.id (T.now + 1) } : Timed)).s.flushes = _ from rfl) h2 h3 (setAt_self ..)
      refine ⟨T', Inner.trans (((Inner.refl T).step hw rfl rfl).step hs rfl (accepted_snoc (by simp))) k1, k2, ?_⟩
      rw [k3]
      show T.now + 1 + n = _
      omega

theorem TSteps.here {τ : Timing} {T0 T : Timed} (_ : TSteps τ T0 T) : TSteps τ T T := .refl T

theorem TSteps.slow {T0 T : Timed} (_ : TSteps noTimeout T0 T) (n : Nat) (f : Flush) (h1 : T.s.flushes = [f]) (h2 : f.remaining.length = n + 1)
    (h3 : T.s.bg = .flushing f.id) (h4 : T.since f.id = T.now) : ∃ T', Inner noTimeout T T' ∧ T'.s.pending = T.s.pending ∧ T'.now = T.now + n :=
  slow_flush n T f h1 h2 h3 h4

end Appdash.Chunked
