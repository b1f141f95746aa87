import Verif.Model.Http
import Mathlib.Data.List.Forall2

/-!
# Model of package `opentracing` (recorder.go, json.go)

Spans may be recorded from several goroutines at once.  Every goroutine that is in `RecordSpan` is a thread with a list of
things that it will still do; a step of the system lets one thread do the next of them.  The collector is arbitrary: it
may answer any call with any error or with none.
-/

namespace Appdash

/-- What is not determined by the package: the text that `json.Marshal` makes of a map, and `time.Time.Add`. -/
structure OTEnv where
  json : AMap Bytes Bytes → Bytes
  add : GoTime → Int → GoTime

/-- A log record of a span: the time, and for every field the keys and values that its `Marshal` method emits (one for an
ordinary field, none for a no-op field, any number for a lazy logger), as formatted by the methods of `fieldsAsMap`
(opentracing/json.go:50-92). -/
structure OTLog where
  time : GoTime
  fields : List (List (Bytes × Bytes))

/-- basictracer `RawSpan`.  The tags are given with their values formatted by `%+v` (opentracing/recorder.go:66); tags and
baggage are maps. -/
structure RawSpan where
  sampled : Bool
  trace : ID
  span : ID
  parent : ID
  operation : Bytes
  start : GoTime
  duration : Int
  logs : List OTLog
  tags : AMap Bytes Bytes
  baggage : AMap Bytes Bytes

/-- opentracing/json.go:35-38 and `EmitString` etc.: the map of the fields. -/
def fieldsMap : List (List (Bytes × Bytes)) → AMap Bytes Bytes → AMap Bytes Bytes
  | [], m => m
  | f :: fs, m => fieldsMap fs (f.foldl (fun m e => AMap.set m e.1 e.2) m)

/-- opentracing/json.go:34-48 `materializeWithJSON`.  (`json.Marshal` of a map of strings returns no error.) -/
def materialize (env : OTEnv) (fields : List (List (Bytes × Bytes))) : Bytes :=
  let m := fieldsMap fields []
  match m.length, AMap.get m b!"event" with
  | 1, some event => event
  | _, _ => env.json m

/-- The value of the event made by `LogWithTimestamp` (event.go:212-214). -/
def logValue (msg : Bytes) (t : GoTime) : GVal := .struct [gString msg, .scalar (.time t)]

/-- The value of the event `Timespan{S: s, E: e}`. -/
def timespanValue (s e : GoTime) : GVal := .struct [.scalar (.time s), .scalar (.time e)]

/-- What a thread does. -/
inductive OTAct where
  /-- `collectAnnotation` (opentracing/recorder.go:89-94) -/
  | collect (as : List Annotation)
  /-- `logError` (opentracing/recorder.go:99-103): collect a log event with the message of the error -/
  | report (err : Bytes)
  /-- opentracing/recorder.go:104-109: the report was refused with this error -/
  | log (err : Bytes)
deriving DecidableEq, Repr

/-- opentracing/recorder.go:80-87 `collectEvent`: a possible thing to do for an event.  The message of an error of
`MarshalEvent` is arbitrary. -/
def CollectEvent (E : EventType) (v : GVal) (act : OTAct) : Prop :=
  ∃ r, Marshals E v r ∧
    match r with
    | .ok as => act = .collect as
    | .error _ => ∃ msg, act = .report msg

/-- The annotation made of a tag (opentracing/recorder.go:66-67) or a baggage item (opentracing/recorder.go:71). -/
def tagAct (e : Bytes × Bytes) : OTAct := .collect [⟨e.1, some e.2⟩]

/-- opentracing/recorder.go:48-52: the IDs of the span. -/
def RawSpan.id (sp : RawSpan) : SpanID := { span := sp.span, trace := sp.trace, parent := sp.parent }

/-- opentracing/recorder.go:43-77 `RecordSpan`: what the call does, in order; the maps are visited in any order. -/
def RecordSpan (env : OTEnv) (sp : RawSpan) (acts : List OTAct) : Prop :=
  if sp.sampled = false then acts = []
  else
    ∃ (name : OTAct) (logs : List OTAct) (tags baggage : List (Bytes × Bytes)) (times : OTAct),
      CollectEvent spanNameEvent (nameValue sp.operation) name ∧
      List.Forall₂ (fun l act => CollectEvent logEvent (logValue (materialize env l.fields) l.time) act) sp.logs logs ∧
      tags.Perm sp.tags ∧ baggage.Perm sp.baggage ∧
      CollectEvent timespan (timespanValue sp.start (env.add sp.start sp.duration)) times ∧
      acts = name :: logs ++ tags.map tagAct ++ baggage.map tagAct ++ [times]

/-- A call of the collector that has returned: the thread that made it, the arguments, the error that the call reports (if
it is made by `logError`), and the error that the collector returned. -/
structure OTCall where
  thread : Nat
  span : SpanID
  as : List Annotation
  report : Option Bytes
  answer : Option Bytes
deriving DecidableEq, Repr

/-- opentracing/recorder.go:22-27 `type Recorder struct`, with the goroutines that use it: the span that each records and
what is left to be done; the calls made so far, and the errors written to the logger. -/
structure OTState where
  verbose : Bool
  once : Bool
  threads : List (RawSpan × List OTAct)
  calls : List OTCall
  logged : List Bytes

/-- opentracing/recorder.go:30-39 `NewRecorder`. -/
def OTState.new (verbose : Bool) : OTState := ⟨verbose, false, [], [], []⟩

/-- What a thread has to do after a call: report the error, if there is one. -/
def afterCollect (answer : Option Bytes) (acts : List OTAct) : List OTAct :=
  match answer with
  | none => acts
  | some e => .report e :: acts

/-- What a thread has to do after a report: write the error to the logger, if there is one. -/
def afterReport (answer : Option Bytes) (acts : List OTAct) : List OTAct :=
  match answer with
  | none => acts
  | some e => .log e :: acts

/-- opentracing/recorder.go:104-109.  (`sync.Once` makes other callers wait, so its use is one step.) -/
def OTState.writeLog (s : OTState) (e : Bytes) : OTState :=
  if s.verbose then { s with logged := s.logged ++ [e] }
  else if s.once then s
  else { s with once := true, logged := s.logged ++ [e] }

/-- One step of the system. -/
inductive OTStep (env : OTEnv) : OTState → OTState → Prop where
  /-- a goroutine calls `RecordSpan` -/
  | start (s : OTState) (sp : RawSpan) (acts : List OTAct) (h : RecordSpan env sp acts) :
    OTStep env s { s with threads := s.threads ++ [(sp, acts)] }
  /-- opentracing/recorder.go:90-93 -/
  | collect (s : OTState) (i : Nat) (sp : RawSpan) (as : List Annotation) (acts : List OTAct) (answer : Option Bytes)
    (h : s.threads[i]? = some (sp, .collect as :: acts)) :
    OTStep env s
      { s with
        calls := s.calls ++ [⟨i, sp.id, as, none, answer⟩]
        threads := s.threads.set i (sp, afterCollect answer acts) }
  /-- opentracing/recorder.go:100-103; `Log` takes the time from the clock (event.go:206-208) -/
  | report (s : OTState) (i : Nat) (sp : RawSpan) (e : Bytes) (acts : List OTAct) (now : GoTime) (as : List Annotation)
    (answer : Option Bytes) (h : s.threads[i]? = some (sp, .report e :: acts))
    (hm : Marshals logEvent (logValue e now) (.ok as)) :
    OTStep env s
      { s with
        calls := s.calls ++ [⟨i, sp.id, as, some e, answer⟩]
        threads := s.threads.set i (sp, afterReport answer acts) }
  /-- opentracing/recorder.go:104-109 -/
  | log (s : OTState) (i : Nat) (sp : RawSpan) (e : Bytes) (acts : List OTAct)
    (h : s.threads[i]? = some (sp, .log e :: acts)) :
    OTStep env s { s.writeLog e with threads := s.threads.set i (sp, acts) }

/-- The states that a new recorder can get into. -/
inductive OTReach (env : OTEnv) (verbose : Bool) : OTState → Prop where
  | new : OTReach env verbose (.new verbose)
  | step {s s' : OTState} (h : OTReach env verbose s) (hs : OTStep env s s') : OTReach env verbose s'

end Appdash
