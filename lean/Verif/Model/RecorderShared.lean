import Verif.Model.Recorder

/-!
# Model of a `Recorder` used by several goroutines (recorder.go)

A step is one access to a variable of the recorder, one call of the collector or the logger, or a section protected by `errorsMu`; steps
of different goroutines are interleaved in any order.  The collector and `MarshalEvent` are arbitrary.  Slices are copied: that two
concurrent `append` calls may also write to the same array is not modelled.
-/

namespace Appdash

/-- Where a goroutine stands. -/
inductive RecPC where
  /-- Between calls. -/
  | idle
  /-- `Event`: `r.annotations` has been read; it will be set to `as` (recorder.go:81). -/
  | appending (as : List Annotation)
  /-- `Finish`: `r.finished` was false (recorder.go:93). -/
  | finishing
  /-- `Finish`: `r.finished` has been set (recorder.go:97). -/
  | marked
  /-- `Annotation` will call the collector (recorder.go:106); `fin` if called by `Finish`. -/
  | sending (fin : Bool) (as : List Annotation)
  /-- `error` will call the collector (recorder.go:129). -/
  | reporting (m : RecMethod) (err : RecErr)
  /-- `error` will call the logger or append to `r.errors` (recorder.go:133-140). -/
  | noting (m : RecMethod) (err : RecErr)
deriving DecidableEq, Repr

/-- A goroutine: where it stands, and the calls it is still to make. -/
structure RecThread where
  pc : RecPC
  todo : List RecOp

/-- recorder.go:17-31 `type Recorder struct`, and the goroutines. -/
structure SharedRec where
  annotations : List Annotation
  finished : Bool
  errors : List RecErr
  logged : List (RecMethod × RecErr)
  threads : List RecThread

/-- What a goroutine does in one step. -/
inductive RecAct where
  /-- It starts a call. -/
  | began (op : RecOp)
  /-- It starts a call of `Event` whose event cannot be marshalled. -/
  | badEvent (err : RecErr)
  /-- It starts a call of `Finish`, which has been called before. -/
  | finishAgain
  /-- `Annotation` (`fin` if called by `Finish`) calls the collector, which answers. -/
  | sent (fin : Bool) (as : List Annotation) (answer : Option RecErr)
  /-- An error is reported to the collector. -/
  | reported (m : RecMethod) (err : RecErr) (as : List Annotation)
  /-- `Errors` returns. -/
  | took (errs : List RecErr)
  /-- Anything else. -/
  | internal

namespace SharedRec

/-- A new recorder, and goroutines that will make the given calls. -/
def new (prog : List (List RecOp)) : SharedRec :=
  { annotations := [], finished := false, errors := [], logged := [], threads := prog.map fun ops => { pc := .idle, todo := ops } }

/-- Goroutine `i` goes on to `pc`, having started one call if `todo` is shorter. -/
def move (s : SharedRec) (i : Nat) (pc : RecPC) (todo : List RecOp) : SharedRec :=
  { s with threads := s.threads.set i { pc := pc, todo := todo } }

end SharedRec

open SharedRec in
/-- One step of goroutine `i`; `logger` says whether there is a `Logger`. -/
inductive SharedStep (logger : Bool) (s : SharedRec) (i : Nat) : RecAct → SharedRec → Prop where
  /-- recorder.go:76, 81: the event is marshalled and `r.annotations` read. -/
  | eventRead {as : List Annotation} {todo : List RecOp} : s.threads[i]? = some ⟨.idle, .event (.ok as) :: todo⟩ →
      SharedStep logger s i (.began (.event (.ok as))) (s.move i (.appending (s.annotations ++ as)) todo)
  /-- recorder.go:81: `r.annotations` is written. -/
  | eventWrite {as : List Annotation} {todo : List RecOp} : s.threads[i]? = some ⟨.appending as, todo⟩ →
      SharedStep logger s i .internal { s.move i .idle todo with annotations := as }
  /-- recorder.go:76-80 -/
  | eventBad {err : RecErr} {todo : List RecOp} : s.threads[i]? = some ⟨.idle, .event (.error err) :: todo⟩ →
      SharedStep logger s i (.badEvent err) (s.move i (.reporting .event err) todo)
  /-- recorder.go:105 -/
  | annotation {as : List Annotation} {todo : List RecOp} : s.threads[i]? = some ⟨.idle, .annotation as :: todo⟩ →
      SharedStep logger s i (.began (.annotation as)) (s.move i (.sending false as) todo)
  /-- recorder.go:93 -/
  | finishFirst {todo : List RecOp} : s.threads[i]? = some ⟨.idle, .finish :: todo⟩ → s.finished = false →
      SharedStep logger s i (.began .finish) (s.move i .finishing todo)
  /-- recorder.go:93-96 -/
  | finishAgain {todo : List RecOp} : s.threads[i]? = some ⟨.idle, .finish :: todo⟩ → s.finished = true →
      SharedStep logger s i .finishAgain (s.move i (.reporting .finish .multipleFinish) todo)
  /-- recorder.go:97 -/
  | finishMark {todo : List RecOp} : s.threads[i]? = some ⟨.finishing, todo⟩ →
      SharedStep logger s i .internal { s.move i .marked todo with finished := true }
  /-- recorder.go:98: `r.annotations` is read. -/
  | finishTake {todo : List RecOp} : s.threads[i]? = some ⟨.marked, todo⟩ →
      SharedStep logger s i .internal (s.move i (.sending true s.annotations) todo)
  /-- recorder.go:106, 112-114: the collector accepts. -/
  | sendOk {fin : Bool} {as : List Annotation} {todo : List RecOp} : s.threads[i]? = some ⟨.sending fin as, todo⟩ →
      SharedStep logger s i (.sent fin as none) (s.move i .idle todo)
  /-- recorder.go:106-108, 112-114: the collector fails. -/
  | sendFail {fin : Bool} {as : List Annotation} {err : RecErr} {todo : List RecOp} :
      s.threads[i]? = some ⟨.sending fin as, todo⟩ →
      SharedStep logger s i (.sent fin as (some err)) (s.move i (.reporting .annotation err) todo)
  /-- recorder.go:127-129: the collector's answer is ignored. -/
  | report {m : RecMethod} {err : RecErr} {as : List Annotation} {todo : List RecOp} :
      s.threads[i]? = some ⟨.reporting m err, todo⟩ →
      SharedStep logger s i (.reported m err as) (s.move i (.noting m err) todo)
  /-- recorder.go:133-140 -/
  | note {m : RecMethod} {err : RecErr} {todo : List RecOp} : s.threads[i]? = some ⟨.noting m err, todo⟩ →
      SharedStep logger s i .internal (if logger then { s.move i .idle todo with logged := s.logged ++ [(m, err)] }
        else { s.move i .idle todo with errors := s.errors ++ [err] })
  /-- recorder.go:119-125 `Errors`, protected by `errorsMu`. -/
  | takeErrors {todo : List RecOp} : s.threads[i]? = some ⟨.idle, .errors :: todo⟩ →
      SharedStep logger s i (.took s.errors) { s.move i .idle todo with errors := [] }

/-- An execution, with the goroutine and the act of every step, all of whose states after a step satisfy `ok`. -/
inductive SharedRuns (logger : Bool) (ok : SharedRec → Prop) : SharedRec → List (Nat × RecAct) → SharedRec → Prop where
  | nil {s : SharedRec} : SharedRuns logger ok s [] s
  | snoc {s s' s'' : SharedRec} {h : List (Nat × RecAct)} {i : Nat} {a : RecAct} :
      SharedRuns logger ok s h s' → SharedStep logger s' i a s'' → ok s'' → SharedRuns logger ok s (h ++ [(i, a)]) s''

end Appdash
