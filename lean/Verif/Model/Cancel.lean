import Verif.Prelude

/-!
# Model of cancelling requests in the HTTP client transport (httptrace/client.go:108-226)

Any number of goroutines call `RoundTrip` and `CancelRequest` of one `Transport`.  Requests are pointers, numbered by address.
What a round trip does besides the bookkeeping of clones is in `Model/Http.lean`.
-/

namespace Appdash

/-- Where a call of `RoundTrip` is (httptrace/client.go:127-163). -/
inductive TripPhase where
  /-- After httptrace/client.go:131: the clone is made. -/
  | cloned
  /-- After httptrace/client.go:132: the clone is registered. -/
  | registered
  /-- In httptrace/client.go:152: the underlying transport is at work. -/
  | inside
  /-- After httptrace/client.go:152: it returned or panicked. -/
  | left
  /-- After the deferred call of httptrace/client.go:133, that is when `RoundTrip` has returned. -/
  | done
deriving DecidableEq, Repr

/-- A call of `RoundTrip`. -/
structure Trip where
  original : Nat
  clone : Nat
  phase : TripPhase
deriving DecidableEq, Repr

/-- A call of `CancelRequest` after its look-up (httptrace/client.go:214-216). -/
structure CancelCall where
  original : Nat
  found : Option Nat
  done : Bool
deriving DecidableEq, Repr

/-- A call that the underlying transport receives, with the number of the calling `RoundTrip` or `CancelRequest`. -/
inductive InnerCall where
  | roundTrip (call req : Nat)
  | cancel (call req : Nat)
deriving DecidableEq, Repr

/-- httptrace/client.go:111-125 `Transport` with the calls of its methods, and the calls that the underlying transport has
received.  `next` is an address above all that occurred so far. -/
structure TransportState where
  next : Nat
  requests : AMap Nat Nat
  trips : Nat → Option Trip
  cancels : Nat → Option CancelCall
  log : List InnerCall

/-- A new `Transport`.  The nil map of httptrace/client.go:187-189 behaves as an empty one. -/
def TransportState.new : TransportState := ⟨0, [], fun _ => none, fun _ => none, []⟩

/-- Setting one value of a function. -/
def updateAt {α : Type} (f : Nat → α) (k : Nat) (x : α) : Nat → α := fun i => if i = k then x else f i

/-- The atomic steps of the goroutines: the calls numbered `k` of `RoundTrip` and `j` of `CancelRequest`.  The map is accessed
under a lock, so that each access is one step. -/
inductive TransportAct where
  | start (k original : Nat)
  | register (k : Nat)
  | enter (k : Nat)
  | leave (k : Nat)
  | finish (k : Nat)
  | cancel (j original : Nat)
  | forward (j : Nat)
deriving DecidableEq, Repr

/-- httptrace/client.go:183-197 `setCloneRequest`. -/
def setCloneRequest (requests : AMap Nat Nat) (original : Nat) : Option Nat → AMap Nat Nat
  | some clone => requests.set original clone
  | none => requests.del original

/-- One step; `none` if it is not possible.  `canCancel` says whether the underlying transport has a method `CancelRequest`
(httptrace/client.go:222). -/
def TransportState.step (canCancel : Bool) (s : TransportState) : TransportAct → Option TransportState
  | .start k o =>
    match s.trips k with
    | none =>
      -- httptrace/client.go:131, 167-171: `new(http.Request)` is an address that did not occur before
      let clone := max s.next (o + 1)
      some { s with next := clone + 1, trips := updateAt s.trips k (some ⟨o, clone, .cloned⟩) }
    | some _ => none
  | .register k =>
    match s.trips k with
    | some ⟨o, c, .cloned⟩ =>
      some { s with requests := setCloneRequest s.requests o (some c), trips := updateAt s.trips k (some ⟨o, c, .registered⟩) }
    | _ => none
  | .enter k =>
    match s.trips k with
    | some ⟨o, c, .registered⟩ =>
      some { s with trips := updateAt s.trips k (some ⟨o, c, .inside⟩), log := s.log ++ [.roundTrip k c] }
    | _ => none
  | .leave k =>
    match s.trips k with
    | some ⟨o, c, .inside⟩ => some { s with trips := updateAt s.trips k (some ⟨o, c, .left⟩) }
    | _ => none
  | .finish k =>
    match s.trips k with
    | some ⟨o, c, .left⟩ =>
      some { s with requests := setCloneRequest s.requests o none, trips := updateAt s.trips k (some ⟨o, c, .done⟩) }
    | _ => none
  -- httptrace/client.go:214-219
  | .cancel j o =>
    match s.cancels j with
    | none =>
      match s.requests.get o with
      | some c => some { s with cancels := updateAt s.cancels j (some ⟨o, some c, false⟩) }
      | none => some { s with cancels := updateAt s.cancels j (some ⟨o, none, true⟩) }
    | some _ => none
  -- httptrace/client.go:221-224
  | .forward j =>
    match s.cancels j with
    | some ⟨o, some c, false⟩ =>
      some { s with cancels := updateAt s.cancels j (some ⟨o, some c, true⟩)
                    log := if canCancel then s.log ++ [.cancel j c] else s.log }
    | _ => none

/-- A schedule. -/
def TransportState.run (canCancel : Bool) (s : TransportState) : List TransportAct → Option TransportState
  | [] => some s
  | a :: as =>
    match s.step canCancel a with
    | none => none
    | some s => s.run canCancel as

end Appdash
