import Verif.Model.Times
import Verif.Model.Router

/-!
# Model of the profile, aggregate and timeline views (`traceapp/prof.go`, `aggregate.go`, `vis.go`)

The sums of times are `int64` in Go and integers here: overflow would need spans of millions of years in total.
-/

namespace Appdash

/-- What the views depend on besides the trace: the registered events, the rounding of a duration to milliseconds with
floating-point numbers (traceapp/prof.go:62-63), which is left open, and the text of a duration (`time.Duration.String`, called
from traceapp/vis.go:130), which is left open as well. -/
structure ViewEnv where
  reg : Registry
  millis : GoTime → GoTime → Int
  durText : Int → Bytes

/-- The result of a view: `none` is a panic. -/
abbrev View (ε α : Type) := Option (Except ε α)

/-- traceapp/prof.go:13-17 `profile`. -/
structure Profile where
  name : Bytes
  url : Bytes
  time : Int
  timeChildren : Int
  timeCum : Int
deriving DecidableEq, Repr

/-- traceapp/prof.go:55-67: the time of the largest timespan event. -/
def ownTime (millis : GoTime → GoTime → Int) : Int → List (Bytes × GoTime × GoTime) → Int
  | time, [] => time
  | time, (_, s, e) :: ts =>
    let ms := millis s e
    ownTime millis (if ms > time then ms else time) ts

/-- traceapp/prof.go:46-52: the name shown for a span. -/
def profileName (s : Span) : Bytes :=
  if annotationsName s.annotations = [] then s.id.span.toText else annotationsName s.annotations

mutual

/-- traceapp/prof.go:23-92 `calcProfile`.  The result is the entries it appends to the buffer and the profile of the span itself.
Go appends a pointer to the profile before it is complete; the entry here is the completed one. -/
def calcProfile (env : ViewEnv) : Tree → View EventErr (List Profile × Profile)
  | .node s sub =>
    match spanTimes env.reg s.annotations with
    | none => none
    | some (.error err) => some (.error err)
    | some (.ok ts) =>
      let time := ownTime env.millis 0 ts
      match calcProfiles env sub time time with
      | none => none
      | some (.error err) => some (.error err)
      | some (.ok (buf, timeChildren, timeCum)) =>
        let p : Profile := ⟨profileName s, spanURL s.id, time, timeChildren, timeCum⟩
        some (.ok (p :: buf, p))

/-- traceapp/prof.go:77-90: the loop over the children.  The two numbers are `p.TimeChildren` and `p.TimeCum`. -/
def calcProfiles (env : ViewEnv) : List Tree → Int → Int → View EventErr (List Profile × Int × Int)
  | [], timeChildren, timeCum => some (.ok ([], timeChildren, timeCum))
  | c :: cs, timeChildren, timeCum =>
    match calcProfile env c with
    | none => none
    | some (.error err) => some (.error err)
    | some (.ok (buf, childProf)) =>
      match calcProfiles env cs (timeChildren + childProf.time) (timeCum + childProf.timeCum) with
      | none => none
      | some (.error err) => some (.error err)
      | some (.ok (buf', timeChildren, timeCum)) => some (.ok (buf ++ buf', timeChildren, timeCum))

end

/-- traceapp/aggregate.go:16-22 `aggMode`. -/
inductive AggMode where
  | traceOnly | spanOnly | traceAndSpan
deriving DecidableEq, Repr

/-- traceapp/aggregate.go:30-41 `parseAggMode`. -/
def parseAggMode (s : Bytes) : AggMode :=
  if s = b!"trace-only" then .traceOnly
  else if s = b!"span-only" then .spanOnly
  else if s = b!"trace-and-span" then .traceAndSpan
  else .traceOnly

/-- traceapp/aggregate.go:48-62 `up`.  The map goes from labels to the values of the items. -/
def aggUp (m : AMap Bytes Int) (label : Bytes) (value : Int) : AMap Bytes Int :=
  let v := (AMap.get m label).getD 0 + value
  AMap.set m label (if v = 0 then 1 else v)

/-- traceapp/aggregate.go:75-77, 79-81: the loops over the spans of a trace. -/
def aggSpans (label : Profile → Bytes) : List Profile → AMap Bytes Int → AMap Bytes Int
  | [], m => m
  | p :: ps, m => aggSpans label ps (aggUp m (label p) p.time)

/-- traceapp/aggregate.go:64-83: the loop over the traces.  `profiles[1:]` panics if the list is empty, which it never is. -/
def aggTraces (env : ViewEnv) (mode : AggMode) : List Tree → AMap Bytes Int → View EventErr (AMap Bytes Int)
  | [], m => some (.ok m)
  | t :: ts, m =>
    match calcProfile env t with
    | none => none
    | some (.error err) => some (.error err)
    | some (.ok (profiles, childProf)) =>
      match mode with
      | .traceOnly => aggTraces env mode ts (aggUp m childProf.name childProf.timeCum)
      | .spanOnly =>
        match profiles with
        | [] => none
        | _ :: rest => aggTraces env mode ts (aggSpans (fun p => p.name) rest m)
      | .traceAndSpan =>
        match profiles with
        | [] => none
        | _ :: rest => aggTraces env mode ts (aggSpans (fun p => childProf.name ++ b!": " ++ p.name) rest m)

/-- traceapp/aggregate.go:44-91 `aggregate`: the items, by label.  Go returns them in random order (aggregate.go:87). -/
def aggregate (env : ViewEnv) (mode : AggMode) (traces : List Tree) : View EventErr (AMap Bytes Int) :=
  aggTraces env mode traces []

/-- traceapp/vis.go:41-46 `timelineItemTimespan`. -/
structure TimelineSpan where
  label : Bytes
  start : Int
  fin : Int
  duration : Int
deriving DecidableEq, Repr

/-- traceapp/vis.go:21-30 `timelineItem`. -/
structure TimelineItem where
  label : Bytes
  fullLabel : Bytes
  times : List TimelineSpan
  data : AMap Bytes Bytes
  spanID : Bytes
  parentSpanID : Bytes
  url : Bytes
  visible : Bool
deriving DecidableEq, Repr

/-- The errors of `d3timeline`: of `UnmarshalEvents` (vis.go:56-58) or `errTimelineItemValidation` (vis.go:83-85). -/
inductive TimelineErr where
  | event (e : EventErr)
  | validation
deriving DecidableEq, Repr

/-- `t.UnixNano() / int64(time.Millisecond)` (traceapp/vis.go:104, 105); Go's division rounds towards zero. -/
def unixMilli (t : GoTime) : Int := t.unixNano.tdiv 1000000

/-- traceapp/vis.go:93-126: the loop over the timespan events of a span; the accumulator is `item.Times`.  Comparing with
`time.Time{}` compares the zone as well, so only the zero time in UTC counts as zero. -/
def timelineTimes (root : Bool) : List TimelineSpan → List (Bytes × GoTime × GoTime) → List TimelineSpan
  | times, [] => times
  | times, (schema, s, e) :: ts =>
    if s = .zero ∨ e = .zero then timelineTimes root times ts
    else
      let start := unixMilli s
      let fin := unixMilli e
      if root then timelineTimes root (times ++ [⟨schema, start, fin, 0⟩]) ts
      else
        match times with
        | [] => timelineTimes root [⟨[], start, fin, 0⟩] ts
        | first :: rest =>
          timelineTimes root
            ({ first with start := if first.start > start then start else first.start,
                          fin := if first.fin < fin then fin else first.fin } :: rest) ts

/-- traceapp/vis.go:127-133: label and duration of the timespans.  The duration is computed in `int64` nanoseconds and may wrap
around. -/
def labelTimes (durText : Int → Bytes) (label : Bytes) (times : List TimelineSpan) : List TimelineSpan :=
  match times with
  | [] => []
  | first :: _ =>
    let msec := ((first.fin - first.start) * 1000000).bmod (2 ^ 64)
    times.map fun ts =>
      if msec > 0 then { ts with label := label ++ b!" (" ++ durText msec ++ b!")", duration := msec } else ts

mutual

/-- traceapp/vis.go:52-151 `d3timelineInner`. -/
def d3timelineInner (env : ViewEnv) (depth : Nat) : Tree → View TimelineErr (List TimelineItem)
  | .node s sub =>
    match spanTimes env.reg s.annotations with
    | none => none
    | some (.error err) => some (.error (.event err))
    | some (.ok ts) =>
      let name := annotationsName s.annotations
      if name = [] then some (.error .validation)
      else
        let times := labelTimes env.durText name (timelineTimes (s.id.parent == 0) [] ts)
        if times = [] then some (.ok [])
        else
          let item : TimelineItem :=
            { label := name, fullLabel := name, times := times, data := stringMap s.annotations, spanID := s.id.span.toText,
              parentSpanID := if s.id.parent ≠ 0 then s.id.parent.toText else [], url := spanURL s.id,
              visible := decide (depth ≤ 1) }
          match d3timelineSubs env (depth + 1) sub with
          | none => none
          | some (.error err) => some (.error err)
          | some (.ok items) => some (.ok (item :: items))

/-- traceapp/vis.go:142-148: the loop over the children. -/
def d3timelineSubs (env : ViewEnv) (depth : Nat) : List Tree → View TimelineErr (List TimelineItem)
  | [] => some (.ok [])
  | c :: cs =>
    match d3timelineInner env depth c with
    | none => none
    | some (.error err) => some (.error err)
    | some (.ok items) =>
      match d3timelineSubs env depth cs with
      | none => none
      | some (.error err) => some (.error err)
      | some (.ok items') => some (.ok (items ++ items'))

end

/-- traceapp/vis.go:48-50 `d3timeline`. -/
def d3timeline (env : ViewEnv) (t : Tree) : View TimelineErr (List TimelineItem) := d3timelineInner env 0 t

end Appdash
