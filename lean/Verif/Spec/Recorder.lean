import Verif.Model.Recorder

/-!
# Specification vocabulary for `Recorder`

`before` are the calls made on the recorder before the one in question, `calls` the calls it made to the collector so
far.
-/

namespace Appdash.Spec

/-- The annotations of a recorded event. -/
def eventAnnotations : RecOp → List Annotation
  | .event (.ok as) => as
  | _ => []

/-- The call is `Finish`. -/
def isFinish : RecOp → Bool
  | .finish => true
  | _ => false

/-- What a call on the recorder sends to the collector, apart from reports of errors: `Annotation` its arguments, the
first `Finish` the annotations of all events recorded before, and other calls nothing. -/
def sends (before : List RecOp) : RecOp → Option (List Annotation)
  | .annotation as => some as
  | .finish => if before.any isFinish then none else some (before.flatMap eventAnnotations)
  | _ => none

/-- The error a call on the recorder meets: an event cannot be marshalled, `Finish` was called before, or the collector
returns an error for what is sent. -/
def meets (env : RecEnv) (span : SpanID) (before : List RecOp) (calls : List RecCall) :
    RecOp → Option (RecMethod × RecErr)
  | .event (.error err) => some (.event, err)
  | .finish =>
    if before.any isFinish then some (.finish, .multipleFinish)
    else (env.answer calls (span, before.flatMap eventAnnotations)).map (Prod.mk .annotation)
  | .annotation as => (env.answer calls (span, as)).map (Prod.mk .annotation)
  | _ => none

/-- The errors met in a sequence of calls on a recorder, in order, with the methods they are reported for. -/
def metErrors (env : RecEnv) (logger : Bool) (span : SpanID) (ops : List RecOp) : List (RecMethod × RecErr) :=
  (List.range ops.length).flatMap fun i => (ops[i]?.bind fun op =>
    meets env span (ops.take i) ((Recorder.new logger span).run env (ops.take i)).1.calls op).toList

end Appdash.Spec
