import Verif.Model.Event

/-!
# Model of `Trace.TimespanEvent` (trace.go) and of the operations of `time.Time` it uses
-/

namespace Appdash

namespace GoTime

/-- The number of days from 1 January 1970 to a date of the Gregorian calendar. -/
def days (y m d : Nat) : Int :=
  let y' : Int := if m ≤ 2 then (y : Int) - 1 else y
  let m' : Int := if m ≤ 2 then (m : Int) + 9 else (m : Int) - 3
  365 * y' + y' / 4 - y' / 100 + y' / 400 + (153 * m' + 2) / 5 + (d : Int) - 719469

/-- The instant of a time, in nanoseconds since 1 January 1970, 00:00 UTC. -/
def instant (t : GoTime) : Int :=
  (days t.year t.month t.day * 86400 + t.hour * 3600 + t.min * 60 + t.sec - t.off * 60) * 1000000000 + t.nsec

/-- `t.IsZero()` (called from trace.go:102, 114): the instant of the zero time, in whatever zone. -/
def isZero (t : GoTime) : Bool := t.instant == GoTime.zero.instant

/-- `t.UnixNano()` (called from trace.go:107, 110 and traceapp/vis.go:104, 105): an `int64`, which wraps around for times before
1678 or after 2262. -/
def unixNano (t : GoTime) : Int := t.instant.bmod (2 ^ 64)

end GoTime

/-- What the `Start` and `End` methods of an event return, if it is a `TimespanEvent` (event.go:173-177). -/
def EventType.span (E : EventType) (v : GVal) : Option (GoTime × GoTime) :=
  match E.times with
  | none => none
  | some (i, j) =>
    match v.fields[i]?, v.fields[j]? with
    | some (.scalar (.time s)), some (.scalar (.time e)) => some (s, e)
    | _, _ => none

/-- The type assertion `e.(TimespanEvent)` (trace.go:98, traceapp/prof.go:57, traceapp/vis.go:94) on an event that
`UnmarshalEvents` returned, with what `Schema`, `Start` and `End` then return. -/
def asTimespan (reg : Registry) (e : Bytes × GVal) : Option (Bytes × GoTime × GoTime) :=
  match AMap.get reg e.1 with
  | none => none
  | some E =>
    match E.span e.2 with
    | none => none
    | some (s, t) => some (e.1, s, t)

/-- `UnmarshalEvents` of a span's annotations followed by the selection of its `TimespanEvent`s (trace.go:51-54, 97-101;
traceapp/prof.go:25-28, 56-60; traceapp/vis.go:55-58, 93-94).  `none` is a panic. -/
def spanTimes (reg : Registry) (as : List Annotation) : Option (Except EventErr (List (Bytes × GoTime × GoTime))) :=
  match unmarshalEvents reg as with
  | none => none
  | some (_, some err) => some (.error err)
  | some (evs, none) => some (.ok (evs.filterMap (asTimespan reg)))

/-- trace.go:97-113: the loop of `findTraceTimes` over the timespan events. -/
def findTraceTimesLoop : GoTime → GoTime → List (Bytes × GoTime × GoTime) → GoTime × GoTime
  | start, fin, [] => (start, fin)
  | start, fin, (_, s, e) :: ts =>
    if start.isZero then findTraceTimesLoop s e ts
    else
      let start' := if s.unixNano < start.unixNano then s else start
      let fin' := if e.unixNano > fin.unixNano then e else fin
      findTraceTimesLoop start' fin' ts

/-- trace.go:95-115 `findTraceTimes`. -/
def findTraceTimes (ts : List (Bytes × GoTime × GoTime)) : GoTime × GoTime × Bool :=
  let (start, fin) := findTraceTimesLoop .zero .zero ts
  (start, fin, !start.isZero)

/-- The errors of `Trace.TimespanEvent` (trace.go:53, 57). -/
inductive TimespanErr where
  | event (e : EventErr)
  | notFound
deriving DecidableEq, Repr

/-- trace.go:50-60 `Trace.TimespanEvent`, as a function of the annotations of the trace's span; an event is returned as the pair of
its times.  `none` is a panic. -/
def traceTimespan (reg : Registry) (as : List Annotation) : Option (Except TimespanErr (GoTime × GoTime)) :=
  match spanTimes reg as with
  | none => none
  | some (.error err) => some (.error (.event err))
  | some (.ok ts) =>
    match findTraceTimes ts with
    | (start, fin, ok) => if ok then some (.ok (start, fin)) else some (.error .notFound)

end Appdash
