import Verif.Model.ChunkedTime
import Verif.Spec.Chunked

/-!
# Specification: how long annotations wait
-/

namespace Appdash.Chunked

/-- How long a flush takes at most, with a time-out: the call that is running when it is over is waited for. -/
def Timing.flushTime (τ : Timing) : Nat := τ.flushTimeout + τ.collectTime + τ.delay

/-- How long annotations wait at most: until a running flush has ended, for `MinInterval`, and until their own flush has ended. -/
def Timing.longest (τ : Timing) : Nat := τ.flushTime + τ.delay + (τ.minInterval + τ.delay) + τ.flushTime

/-- Every annotation accepted until `T` has been passed to the underlying collector, or dropped, in `T'`. -/
def Settled (T T' : Timed) : Prop :=
  ∀ x : Item, (acceptedItems T.s.history).count x ≤ (deliveredItems T'.s.history).count x + (droppedItems T'.s.history).count x

/-- What the documentation says (collector.go:71-72): after `MinInterval`, all queued collections are passed to the underlying collector.
(That is, `Flush` has begun then, and ends when it can.) -/
def PassedAfterMinInterval : Prop :=
  ∀ (τ : Timing) (T T' : Timed), τ.flushTimeout ≠ 0 → TReachable τ T → TSteps τ T T' → T'.s.stopped = false →
    T.now + τ.minInterval + τ.delay + τ.flushTime < T'.now → Settled T T'

end Appdash.Chunked
