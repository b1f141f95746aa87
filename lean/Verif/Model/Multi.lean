import Verif.Model.Store

/-!
# Model of `MultiStore` and `MultiQueryer` (multi.go)

The underlying stores are arbitrary: a method may read and change the state `σ` of the world and return anything.  Their
panics are not modelled.
-/

namespace Appdash

/-- An error returned by a store. -/
inductive StoreErr where
  /-- store.go:26 `ErrTraceNotFound` -/
  | notFound
  | other (msg : Bytes)
deriving DecidableEq, Repr

/-- store.go:15-21 and 39-42: the methods of `Store` and `Queryer`.  A `*Trace` may be nil (`none`). -/
structure AnyStore (σ : Type) where
  collect : SpanID → List Annotation → σ → σ × Option StoreErr
  trace : ID → σ → σ × (Option Tree × Option StoreErr)
  traces : TracesOpts → σ → σ × (List (Option Tree) × Option StoreErr)

variable {σ : Type}

/-- multi.go:12-19 `multiStore.Collect` -/
def multiCollect : List (AnyStore σ) → SpanID → List Annotation → σ → σ × Option StoreErr
  | [], _, _, w => (w, none)
  | s :: stores, id, as, w =>
    match s.collect id as w with
    | (w, some err) => (w, some err)
    | (w, none) => multiCollect stores id as w

/-- multi.go:23-34 `multiStore.Trace` -/
def multiTrace : List (AnyStore σ) → ID → σ → σ × (Option Tree × Option StoreErr)
  | [], _, w => (w, none, some .notFound)
  | s :: stores, t, w =>
    match s.trace t w with
    | (w, _, some .notFound) => multiTrace stores t w
    | (w, _, some err) => (w, none, some err)
    | (w, trace, none) => (w, trace, none)

/-- multi.go:66-71: the inner loop of `multiQueryer.Traces`, with the set `union` and the list `all`; `none` is the panic
caused by a nil trace. -/
def multiUnion : List (Option Tree) → AMap ID Unit → List Tree → Option (AMap ID Unit × List Tree)
  | [], union, all => some (union, all)
  | none :: _, _, _ => none
  | some t :: ts, union, all =>
    match union.get t.span.id.trace with
    | some _ => multiUnion ts union all
    | none => multiUnion ts (union.set t.span.id.trace ()) (all ++ [t])

/-- multi.go:61-72: the outer loop; the options are not passed on. -/
def multiTracesLoop : List (AnyStore σ) → AMap ID Unit → List Tree → σ → Option (σ × (List Tree × Option StoreErr))
  | [], _, all, w => some (w, all, none)
  | q :: queryers, union, all, w =>
    match q.traces {} w with
    | (w, _, some err) => some (w, [], some err)
    | (w, traces, none) =>
      match multiUnion traces union all with
      | none => none
      | some (union, all) => multiTracesLoop queryers union all w

/-- multi.go:56-74 `multiQueryer.Traces` -/
def multiTraces (queryers : List (AnyStore σ)) (_opts : TracesOpts) (w : σ) :
    Option (σ × (List Tree × Option StoreErr)) :=
  multiTracesLoop queryers [] [] w

end Appdash
