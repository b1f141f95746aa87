import Verif.Model.Slices

/-!
# What sharing must not show: the same program, with annotations copied
-/

namespace Appdash.Slices.Spec

/-- The same program if every call of `Collect` is given its own copy of the annotations, so that nothing is shared. -/
structure Copying where
  vars : Nat → List Annotation := fun _ => []
  stores : Nat → MemStore := fun _ => .new
  gen : Nat → Nat := fun _ => 0
  pending : Nat → Entry → Option (List Annotation) := fun _ _ => none

/-- One operation. -/
def Copying.step (c : Copying) : Op → Option Copying
  | .make v as _ => some { c with vars := upd c.vars v as }
  | .append v as _ => some { c with vars := upd c.vars v (c.vars v ++ as) }
  | .write v i a => some { c with vars := upd c.vars v ((c.vars v).set i a) }
  | .collect k id v _ => ((c.stores k).collect id (c.vars v)).map fun ms => { c with stores := upd c.stores k ms }
  | .delete k ids => some { c with stores := upd c.stores k ((c.stores k).delete ids) }
  | .queue k id v _ =>
    some { c with
      pending := upd c.pending k (upd (c.pending k) (c.gen k, id) (some ((c.pending k (c.gen k, id)).getD [] ++ c.vars v))) }
  | .flush k => some { c with gen := upd c.gen k (c.gen k + 1) }
  | .send k e _ =>
    if e.1 < c.gen k then
      match c.pending k e with
      | none => some c
      | some as =>
        ((c.stores k).collect e.2 as).map fun ms =>
          { c with stores := upd c.stores k ms, pending := upd c.pending k (upd (c.pending k) e none) }
    else some c
  | .drop k e => some { c with pending := upd c.pending k (upd (c.pending k) e none) }

/-- A sequence of operations. -/
def Copying.run (c : Copying) : List Op → Option Copying
  | [] => some c
  | op :: ops =>
    match c.step op with
    | none => none
    | some c => c.run ops

/-- The program leaves slices alone that it has passed to `Collect`: `gone` are the variables whose slices have been passed. -/
def HandsOver : (gone : Nat → Bool) → List Op → Prop
  | _, [] => True
  | gone, .make v _ _ :: ops => HandsOver (upd gone v false) ops
  | gone, .append v _ _ :: ops => gone v = false ∧ HandsOver gone ops
  | gone, .write v _ _ :: ops => gone v = false ∧ HandsOver gone ops
  | gone, .collect _ _ v _ :: ops => gone v = false ∧ HandsOver (upd gone v true) ops
  | gone, .queue _ _ v _ :: ops => gone v = false ∧ HandsOver (upd gone v true) ops
  | gone, .delete _ _ :: ops => HandsOver gone ops
  | gone, .flush _ :: ops => HandsOver gone ops
  | gone, .send _ _ _ :: ops => HandsOver gone ops
  | gone, .drop _ _ :: ops => HandsOver gone ops

/-- What one expects of every program: stores show what was passed to them when it was passed. -/
def ShowWhatWasPassed : Prop :=
  ∀ (ops : List Op) (s : Sys) (c : Copying), Sys.run {} ops = some s → Copying.run {} ops = some c →
    ∀ (k : Nat) (t : ID), ((s.stores k).contents s.arrays).view t = (c.stores k).view t

/-- What a program does with its own slices. -/
def Op.isOwn : Op → Bool
  | .make _ _ _ | .append _ _ _ | .write _ _ _ => true
  | _ => false

/-- What one expects of a recorder: what happens to its slice after `Finish` has passed it (recorder.go:98) changes nothing that is shown. -/
def NothingShownAfterFinish : Prop :=
  ∀ (before between : List Op) (k : Nat) (id : SpanID) (v n n' : Nat) (as : List Annotation) (s s' : Sys),
    Sys.run {} (before ++ .collect k id v n :: between) = some s → s.step (.append v as n') = some s' →
    ∀ (j : Nat) (t : ID), ((s'.stores j).contents s'.arrays).view t = ((s.stores j).contents s.arrays).view t

end Appdash.Slices.Spec
