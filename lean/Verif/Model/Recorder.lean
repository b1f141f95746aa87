import Verif.Model.Span

/-!
# Model of `Recorder` (recorder.go)

The collector is arbitrary: it answers each call depending on all calls made so far.  `Name`, `Msg`, `Log` and
`LogWithTimestamp` (recorder.go:51-71) call `Event`.  The variables of a `Recorder`, except `errors`, are not protected by
a mutex, so calls are modelled as sequential.
-/

namespace Appdash

/-- The errors a `Recorder` deals with. -/
inductive RecErr where
  /-- recorder.go:12 `errMultipleFinishCalls` -/
  | multipleFinish
  /-- An error of `MarshalEvent` or of the collector. -/
  | other (msg : Bytes)
deriving DecidableEq, Repr

/-- The methods that are named in messages. -/
inductive RecMethod where
  | event
  | finish
  | annotation
deriving DecidableEq, Repr

/-- A call of the collector. -/
abbrev RecCall := SpanID × List Annotation

/-- What the `Recorder` does not determine itself. -/
structure RecEnv where
  /-- The answer of the collector to a call, given the calls before. -/
  answer : List RecCall → RecCall → Option RecErr
  /-- The annotations of the log event for an error (recorder.go:127-128); they contain the time, so they may differ from
  call to call. -/
  report : List RecCall → RecMethod → RecErr → List Annotation

/-- recorder.go:17-31 `type Recorder struct`; `calls` are the calls made to the collector, `logged` the errors that have
been written to the logger. -/
structure Recorder where
  /-- `Logger` is not nil -/
  logger : Bool
  span : SpanID
  annotations : List Annotation
  finished : Bool
  errors : List RecErr
  calls : List RecCall
  logged : List (RecMethod × RecErr)

namespace Recorder

/-- recorder.go:35-43 `NewRecorder`, with a collector that is not nil; `Logger` is set afterwards by the user. -/
def new (logger : Bool) (span : SpanID) : Recorder :=
  { logger := logger, span := span, annotations := [], finished := false, errors := [], calls := [], logged := [] }

/-- recorder.go:112-114 `failsafeAnnotation` -/
def failsafeAnnotation (env : RecEnv) (r : Recorder) (as : List Annotation) : Recorder × Option RecErr :=
  ({ r with calls := r.calls ++ [(r.span, as)] }, env.answer r.calls (r.span, as))

/-- recorder.go:126-141 `error` -/
def error (env : RecEnv) (r : Recorder) (method : RecMethod) (err : RecErr) : Recorder :=
  let r := (r.failsafeAnnotation env (env.report r.calls method err)).1
  if r.logger then { r with logged := r.logged ++ [(method, err)] }
  else { r with errors := r.errors ++ [err] }

/-- recorder.go:75-82 `Event`; `as` is the result of `MarshalEvent`. -/
def event (env : RecEnv) (r : Recorder) (as : Except RecErr (List Annotation)) : Recorder :=
  match as with
  | .error err => r.error env .event err
  | .ok as => { r with annotations := r.annotations ++ as }

/-- recorder.go:105-109 `Annotation` -/
def annotation (env : RecEnv) (r : Recorder) (as : List Annotation) : Recorder :=
  match r.failsafeAnnotation env as with
  | (r, none) => r
  | (r, some err) => r.error env .annotation err

/-- recorder.go:92-99 `Finish` -/
def finish (env : RecEnv) (r : Recorder) : Recorder :=
  if r.finished then r.error env .finish .multipleFinish
  else ({ r with finished := true }).annotation env r.annotations

/-- recorder.go:119-125 `Errors` -/
def takeErrors (r : Recorder) : Recorder × List RecErr := ({ r with errors := [] }, r.errors)

end Recorder

/-- The calls on a `Recorder`. -/
inductive RecOp where
  | event (as : Except RecErr (List Annotation))
  | annotation (as : List Annotation)
  | finish
  | errors

namespace Recorder

/-- Perform one call; the result is what `Errors` returns, if it was called. -/
def step (env : RecEnv) (r : Recorder) : RecOp → Recorder × List RecErr
  | .event as => (r.event env as, [])
  | .annotation as => (r.annotation env as, [])
  | .finish => (r.finish env, [])
  | .errors => r.takeErrors

/-- Perform a sequence of calls; the result is what the `Errors` calls returned, concatenated. -/
def run (env : RecEnv) (r : Recorder) : List RecOp → Recorder × List RecErr
  | [] => (r, [])
  | op :: ops =>
    let (r, e1) := r.step env op
    let (r, e2) := r.run env ops
    (r, e1 ++ e2)

end Recorder

end Appdash
