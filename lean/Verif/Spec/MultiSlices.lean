import Verif.Spec.Slices

/-!
# A `MultiStore` passes the same slice to all its stores
-/

namespace Appdash.Slices.Spec

/-- What a program with one goroutine does with the stores of a `MultiStore`. -/
inductive MultiOp where
  /-- anything with slices of its own -/
  | make (v : Nat) (as : List Annotation) (spare : Nat)
  | append (v : Nat) (as : List Annotation) (spare : Nat)
  | write (v : Nat) (i : Nat) (a : Annotation)
  /-- `multi.Collect(id, v...)` -/
  | collect (id : SpanID) (v : Nat) (spares : Nat → Nat)
  /-- one of the stores deletes traces -/
  | delete (k : Nat) (ids : List ID)

/-- multi.go:12-19 `multiStore.Collect` with `n` stores: all of them are given the same slice, in order.  (None of them fails.) -/
def collectAll (n : Nat) (id : SpanID) (v : Nat) (spares : Nat → Nat) : List Op := (List.range n).map fun k => .collect k id v (spares k)

/-- The operations on `n` stores. -/
def MultiOp.ops (n : Nat) : MultiOp → List Op
  | .make v as spare => [.make v as spare]
  | .append v as spare => [.append v as spare]
  | .write v i a => [.write v i a]
  | .collect id v spares => collectAll n id v spares
  | .delete k ids => [.delete k ids]

/-- The program leaves slices alone that it has passed to `Collect`. -/
def MultiHandsOver : (gone : Nat → Bool) → List MultiOp → Prop
  | _, [] => True
  | gone, .make v _ _ :: p => MultiHandsOver (upd gone v false) p
  | gone, .append v _ _ :: p => gone v = false ∧ MultiHandsOver gone p
  | gone, .write v _ _ :: p => gone v = false ∧ MultiHandsOver gone p
  | gone, .collect _ v _ :: p => gone v = false ∧ MultiHandsOver (upd gone v true) p
  | gone, .delete _ _ :: p => MultiHandsOver gone p

/-- The variable that an operation uses. -/
def Op.var? : Op → Option Nat
  | .make v _ _ | .append v _ _ | .write v _ _ | .collect _ _ v _ | .queue _ _ v _ => some v
  | _ => none

/-- `m` goroutines use a `MultiStore` of `n` stores: each makes a slice of its own and passes it to `Collect` once.  Their steps come in any
order; another goroutine can come between the calls for two stores. -/
def Concurrent (n m : Nat) (ops : List Op) : Prop :=
  (∀ op ∈ ops, ∃ v < m, Op.var? op = some v) ∧
    ∀ v < m, ∃ own id spares, (∀ op ∈ own, Op.isOwn op = true) ∧
      ops.filter (fun op => Op.var? op == some v) = own ++ collectAll n id v spares

/-- What one expects of a `MultiStore`: each of its stores shows what it was passed. -/
def MultiShowsWhatWasPassed : Prop :=
  ∀ (n m : Nat) (ops : List Op), Concurrent n m ops → ∀ (s : Sys) (c : Copying), Sys.run {} ops = some s → Copying.run {} ops = some c →
    ∀ (k : Nat) (t : ID), ((s.stores k).contents s.arrays).view t = (c.stores k).view t

end Appdash.Slices.Spec
