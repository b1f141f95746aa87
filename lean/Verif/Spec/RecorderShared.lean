import Verif.Model.RecorderShared
import Verif.Spec.Recorder

/-! # Specification vocabulary for a `Recorder` used by several goroutines -/

namespace Appdash.Spec

/-- All calls have returned. -/
def AllReturned (s : SharedRec) : Prop := ∀ th ∈ s.threads, th.pc = .idle ∧ th.todo = []

/-- The error that is met, with the method it is reported for. -/
def metBy : Nat × RecAct → Option (RecMethod × RecErr)
  | (_, .badEvent err) => some (.event, err)
  | (_, .finishAgain) => some (.finish, .multipleFinish)
  | (_, .sent _ _ (some err)) => some (.annotation, err)
  | _ => none

/-- The error that is reported to the collector. -/
def reportedBy : Nat × RecAct → Option (RecMethod × RecErr)
  | (_, .reported m err _) => some (m, err)
  | _ => none

/-- The errors that `Errors` returned. -/
def tookBy : Nat × RecAct → List RecErr
  | (_, .took errs) => errs
  | _ => []

/-- What goroutine `i` sends by `Annotation`. -/
def sentBy (i : Nat) : Nat × RecAct → Option (List Annotation)
  | (j, .sent false as _) => if j = i then some as else none
  | _ => none

/-- What `Finish` sends. -/
def finishSent : Nat × RecAct → Option (List Annotation)
  | (_, .sent true as _) => some as
  | _ => none

/-- The arguments of a call of `Annotation`. -/
def annotationArgs : RecOp → Option (List Annotation)
  | .annotation as => some as
  | _ => none

/-- The annotations of the event that is being recorded. -/
def eventBegun : Nat × RecAct → List Annotation
  | (_, .began op) => eventAnnotations op
  | _ => []

/-- The call that goroutine `k` starts. -/
def startedBy (k : Nat) : Nat × RecAct → Option RecOp
  | (j, .began op) => if j = k then some op else none
  | (j, .badEvent err) => if j = k then some (.event (.error err)) else none
  | (j, .finishAgain) => if j = k then some .finish else none
  | (j, .took _) => if j = k then some .errors else none
  | _ => none

/-- The goroutine is in the middle of `Event`, or of `Finish` before it calls the collector. -/
def Within : RecPC → Prop
  | .appending _ => True
  | .finishing => True
  | .marked => True
  | _ => False

/-- At most one goroutine is within `Event` or `Finish`, as if the program protected these calls by a mutex. -/
def Exclusive (s : SharedRec) : Prop :=
  ∀ (i j : Nat) (a b : RecThread), s.threads[i]? = some a → s.threads[j]? = some b → Within a.pc → Within b.pc → i = j

end Appdash.Spec
