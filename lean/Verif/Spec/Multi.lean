import Verif.Model.Multi

/-!
# Specification vocabulary for `MultiStore` and `MultiQueryer`

The world is the list of all calls made so far, and the answer of a store is an arbitrary function of it.
-/

namespace Appdash.Spec

/-- A call of a method of the store with the given index. -/
inductive MultiCall where
  | collect (i : Nat) (id : SpanID) (as : List Annotation)
  | trace (i : Nat) (t : ID)
  | traces (i : Nat) (opts : TracesOpts)

/-- The answers of the stores: to call `c`, when the calls `w` were made before. -/
structure Answers where
  collect : MultiCall → List MultiCall → Option StoreErr
  trace : MultiCall → List MultiCall → Option Tree × Option StoreErr
  traces : MultiCall → List MultiCall → List (Option Tree) × Option StoreErr

/-- The store with index `i`, which answers according to `r`. -/
def recording (r : Answers) (i : Nat) : AnyStore (List MultiCall) where
  collect id as w := (w ++ [.collect i id as], r.collect (.collect i id as) w)
  trace t w := (w ++ [.trace i t], r.trace (.trace i t) w)
  traces opts w := (w ++ [.traces i opts], r.traces (.traces i opts) w)

/-- The stores `0, …, n-1`. -/
def recordings (r : Answers) (n : Nat) : List (AnyStore (List MultiCall)) := (List.range n).map (recording r)

/-- The calls of the stores `0, …, k-1`, in this order. -/
def callsUpTo (call : Nat → MultiCall) (k : Nat) : List MultiCall := (List.range k).map call

end Appdash.Spec
