import Verif.Model.Event
import Verif.Spec.Event
import Verif.Spec.Recorder
import Verif.Spec.Causal
import Mathlib.Data.List.Forall2

/-!
# Specification of a traced program

A traced program makes a tree of spans and has a `Recorder` for each of them.
-/

namespace Appdash.Spec

/-- What a program does with one `Recorder`: the events that it records, the calls that record them, `Finish`, and further calls. -/
structure Recording where
  events : List (EventType × GVal)
  logger : Bool
  env : RecEnv
  before : List RecOp
  after : List RecOp

/-- The calls that the recorder for the span makes to its collector. -/
def Recording.calls (r : Recording) (id : SpanID) : List RecCall :=
  ((Recorder.new r.logger id).run r.env (r.before ++ .finish :: r.after)).1.calls

/-- The annotations that a call of `Event` records. -/
def recordedBy : RecOp → Option (List Annotation)
  | .event (.ok as) => some as
  | _ => none

/-- The recording is in order: before `Finish` exactly the events are recorded, each as annotations that `MarshalEvent` may give for it;
`Finish` is called once and `Annotation` not at all, `Errors` at any time; the collector accepts what it gets; and the events are events of the library, of
different types, not both a `Msg` and a `Log`. -/
structure Recording.Proper (r : Recording) (id : SpanID) : Prop where
  recorded : List.Forall₂ (fun e as => Marshals e.1 e.2 (.ok as)) r.events (r.before.filterMap recordedBy)
  first : ∀ op ∈ r.before, op = .errors ∨ ∃ as, op = .event (.ok as)
  rest : ∀ op ∈ r.after, op = .errors ∨ ∃ as, op = .event (.ok as)
  accepted : ∀ as, r.env.answer [] (id, as) = none
  library : ∀ e ∈ r.events, e.1 ∈ libraryEvents ∧ e.1.type.holds e.2 = true
  types : r.events.Pairwise fun e f => e.1.schema ≠ f.1.schema
  notBoth : ¬ ((∃ e ∈ r.events, e.1.schema = b!"msg") ∧ ∃ e ∈ r.events, e.1.schema = b!"log")

/-- The list `out` of `UnmarshalEvents` consists of the events, in order. -/
def AreEvents (events : List (EventType × GVal)) (out : List (Bytes × GVal)) : Prop :=
  List.Forall₂ (fun e o => o.1 = e.1.schema ∧ e.2.Same o.2) events out

end Appdash.Spec
