import Verif.Model.Chunked

/-! # Specification vocabulary for the chunked collector

Everything is a function of the history of calls, or of the data itself. -/

namespace Appdash.Chunked

/-- One annotation of one span. -/
abbrev Item := SpanID × Annotation

/-- The annotations of a collection. -/
def items (d : Delivery) : List Item := d.2.map fun a => (d.1, a)

/-- The annotations that `Collect` accepted. -/
def acceptedItems (h : List Event) : List Item :=
  h.flatMap fun e => match e with
    | .collect d .queued _ => items d
    | _ => []

/-- The annotations passed to the underlying collector. -/
def deliveredItems (h : List Event) : List Item :=
  h.flatMap fun e => match e with
    | .send _ d _ => items d
    | _ => []

/-- The annotations that were accepted and then dropped. -/
def droppedItems (h : List Event) : List Item :=
  h.flatMap fun e => match e with
    | .collect _ (.dropped lost) _ => lost.flatMap items
    | .timeout _ lost => lost.flatMap items
    | _ => []

/-- The `Collect` calls that were accepted, in order. -/
def acceptedCalls (h : List Event) : List Delivery :=
  h.filterMap fun e => match e with
    | .collect d .queued _ => some d
    | _ => none

/-- The calls of the underlying collector, in order. -/
def deliveredCalls (h : List Event) : List Delivery :=
  h.filterMap fun e => match e with
    | .send _ d _ => some d
    | _ => none

/-- What was accepted and then dropped. -/
def droppedCalls (h : List Event) : List Delivery :=
  h.flatMap fun e => match e with
    | .collect _ (.dropped lost) _ => lost
    | .timeout _ lost => lost
    | _ => []

/-- The annotations waiting in the queue. -/
def queuedItems (s : State) : List Item := s.pending.flatMap items

/-- The annotations held by running flushes. -/
def heldItems (s : State) : List Item := s.flushes.flatMap fun f => f.remaining.flatMap items

/-- The size in bytes of what is waiting in the queue: three eight-byte IDs per span, and all keys and values. -/
def queuedBytes (s : State) : Nat :=
  (s.pending.map fun d => 24 + (d.2.map fun a => a.key.length + (a.value.getD []).length).sum).sum

/-- The size of one collection. -/
def sizeOf (d : Delivery) : Nat := 24 + (d.2.map fun a => a.key.length + (a.value.getD []).length).sum

/-- What was collected since the queue was last emptied (by the start of a flush or by a drop). -/
def waiting (h : List Event) : List Delivery :=
  h.foldl (fun acc e => match e with
    | .collect d .queued _ => acc ++ [d]
    | .collect _ (.dropped _) _ => []
    | .flushBegin _ => []
    | _ => acc) []

/-- The history before flush `f` began. -/
def before (f : Nat) (h : List Event) : List Event :=
  h.takeWhile fun e => match e with
    | .flushBegin g => g != f
    | _ => true

/-- What flush `f` passed to the underlying collector, in order. -/
def sends (f : Nat) (h : List Event) : List Delivery :=
  h.filterMap fun e => match e with
    | .send g d _ => if g = f then some d else none
    | _ => none

/-- All annotations collected for span `id`, in the order collected. -/
def annotationsOf (id : SpanID) (ds : List Delivery) : List Annotation :=
  (ds.filter fun d => d.1 = id).flatMap Prod.snd

/-- `out` has exactly one entry for each span in `ds`, with all its annotations in order. -/
def GroupedBySpan (out ds : List Delivery) : Prop :=
  ∀ id, out.filter (fun d => d.1 = id) =
    if id ∈ ds.map Prod.fst then [(id, annotationsOf id ds)] else []

/-- The errors flush `f` met, in order: those of the underlying collector, and `ErrQueueDropped` if it gave up. -/
def errorsOf (f : Nat) (h : List Event) : List Err :=
  h.flatMap fun e => match e with
    | .send g _ err => if g = f then err.toList else []
    | .timeout g _ => if g = f then [.queueDropped] else []
    | _ => []

/-- The error mentions that data was dropped. -/
def Err.mentionsDrop : Err → Prop
  | .queueDropped => True
  | .multiple es => Err.queueDropped ∈ es
  | _ => False

/-- The error of the latest failed background flush, unless a later `Collect` that queued its data came after it. -/
def unreported (h : List Event) : Option Err :=
  h.foldl (fun acc e => match e with
    | .stored e => some e
    | .collect _ .queued _ => none
    | _ => acc) none

/-- The errors of background flushes, in order. -/
def storedErrors (h : List Event) : List Err :=
  h.filterMap fun e => match e with
    | .stored e => some e
    | _ => none

/-- The errors returned by `Collect` calls that queued their data, in order. -/
def reportedErrors (h : List Event) : List Err :=
  h.filterMap fun e => match e with
    | .collect _ .queued err => err
    | _ => none

end Appdash.Chunked
