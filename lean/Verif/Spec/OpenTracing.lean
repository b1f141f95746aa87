import Verif.Model.OpenTracing

/-!
# Specification vocabulary for recording OpenTracing spans
-/

namespace Appdash.Spec

/-- The annotations carry the name `name`. -/
def SaysName (name : Bytes) (as : List Annotation) : Prop :=
  as = [⟨b!"Name", some name⟩, ⟨b!"_schema:name", none⟩]

/-- The annotations carry a log message with a time (the two in any order). -/
def SaysLog (msg : Bytes) (t : GoTime) (as : List Annotation) : Prop :=
  ∃ l, l.Perm [⟨b!"Msg", some msg⟩, ⟨b!"Time", some (formatTime t)⟩] ∧ as = l ++ [⟨b!"_schema:log", none⟩]

/-- The annotations carry a start and an end time (the two in any order). -/
def SaysTimes (s e : GoTime) (as : List Annotation) : Prop :=
  ∃ l, l.Perm [⟨b!"Span.Start", some (formatTime s)⟩, ⟨b!"Span.End", some (formatTime e)⟩] ∧
    as = l ++ [⟨b!"_schema:Timespan", none⟩]

/-- The value a key has after a sequence of assignments: the last one. -/
def lastOf (k : Bytes) : List (Bytes × Bytes) → Option Bytes
  | [] => none
  | (k', v) :: es => (lastOf k es).or (if k' = k then some v else none)

/-- The text logged for a list of fields: the value of `event`, if there is no other key; otherwise the JSON text of a map
that gives every key its last value. -/
def LogText (json : AMap Bytes Bytes → Bytes) (fields : List (Bytes × Bytes)) (text : Bytes) : Prop :=
  (fields ≠ [] ∧ (∀ e ∈ fields, e.1 = b!"event") ∧ lastOf b!"event" fields = some text) ∨
  (¬ (fields ≠ [] ∧ ∀ e ∈ fields, e.1 = b!"event") ∧
    ∃ m : AMap Bytes Bytes, m.keys.Nodup ∧ (∀ k, AMap.get m k = lastOf k fields) ∧ text = json m)

/-- The arguments of the calls that record all of a span: its name, each log in order, each tag, each baggage item, and
its start and end time. -/
def RecordsAll (env : OTEnv) (sp : RawSpan) (calls : List (List Annotation)) : Prop :=
  ∃ (name times : List Annotation) (logs tags baggage : List (List Annotation)),
    calls = [name] ++ logs ++ tags ++ baggage ++ [times] ∧
    SaysName sp.operation name ∧
    List.Forall₂ (fun l as => ∃ text, LogText env.json l.fields.flatten text ∧ SaysLog text l.time as) sp.logs logs ∧
    tags.Perm (sp.tags.map fun e => [⟨e.1, some e.2⟩]) ∧
    baggage.Perm (sp.baggage.map fun e => [⟨e.1, some e.2⟩]) ∧
    SaysTimes sp.start (env.add sp.start sp.duration) times

/-- In a sequence of calls, every call that fails is followed by one that reports the error, and there are no other
reports. -/
inductive ReportsRight : List OTCall → Prop where
  | nil : ReportsRight []
  | ok (c : OTCall) (cs : List OTCall) (h1 : c.report = none) (h2 : c.answer = none) (h : ReportsRight cs) :
    ReportsRight (c :: cs)
  | failed (c r : OTCall) (cs : List OTCall) (e : Bytes) (t : GoTime) (h1 : c.report = none) (h2 : c.answer = some e)
    (h3 : r.report = some e) (h4 : SaysLog e t r.as) (h : ReportsRight cs) : ReportsRight (c :: r :: cs)

/-- The calls that a goroutine has made. -/
def callsOf (s : OTState) (i : Nat) : List OTCall := s.calls.filter fun c => c.thread = i

/-- The errors returned for reports. -/
def failedReports (s : OTState) : List Bytes := s.calls.filterMap fun c => if c.report = none then none else c.answer

end Appdash.Spec
