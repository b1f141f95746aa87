import Verif.Model.Pages
import Verif.Model.Reflect

/-!
# Model of the dashboard (`traceapp/dashboard.go`)

The aggregator is an interface of the package (store.go:68-76) without an implementation in /repo: it is an arbitrary function.
The elements of its answer are pointers; a nil among them would make the handler panic and is not modelled.
-/

namespace Appdash

/-- store.go:47-64 `AggregatedResult`.  The durations are nanoseconds (`int64`). -/
structure AggResult where
  name : Bytes
  average : Int
  min : Int
  max : Int
  stdDev : Int
  samples : Int
  slowest : List ID
deriving DecidableEq, Repr

/-- store.go:68-76 `Aggregator.Aggregate`; `none` is an error. -/
abbrev Aggregator := Int → Int → Option (List AggResult)

/-- `time.Hour` in nanoseconds. -/
def hourNs : Int := 3600000000000

/-- `time.Millisecond` in nanoseconds. -/
def milliNs : Int := 1000000

/-- traceapp/dashboard.go:58-73: one end of the range; `none` is an error.  Multiplication and subtraction wrap around. -/
def rangeEnd (query key : Bytes) : Option Int :=
  let s := queryGet query key
  if s ≠ [] then
    match parseIntDec s with
    | none => none
    | some v => some (wrapInt 64 (wrapInt 64 (v * hourNs) - 72 * hourNs))
  else some 0

/-- `strings.Join(l, sep)` (called from traceapp/dashboard.go:91). -/
def joinWith (sep : Bytes) : List Bytes → Bytes
  | [] => []
  | [s] => s
  | s :: ss => s ++ sep ++ joinWith sep ss

/-- traceapp/dashboard.go:80-91, 100: the URL of the list of traces, with the query set (`url.URL.String`). -/
def slowestURL (ids : List ID) : Bytes :=
  buildURL (templateOf .traces) [] ++ 63 :: (b!"show=" ++ joinWith b!"," (ids.map ID.toText))

/-- traceapp/dashboard.go:15-20, 93-101: a row, as `json.Marshal` writes it.  Division truncates towards zero. -/
def rowJSON (r : AggResult) : JVal :=
  .obj [(b!"Name", .str r.name), (b!"Average", .num (some (r.average.tdiv milliNs))), (b!"Min", .num (some (r.min.tdiv milliNs))),
    (b!"Max", .num (some (r.max.tdiv milliNs))), (b!"StdDev", .num (some (r.stdDev.tdiv milliNs))),
    (b!"Timespans", .num (some r.samples)), (b!"URL", .str (slowestURL r.slowest))]

/-- The answers of the handler. -/
inductive DashReply where
  | disabled
  | failed
  | data (body : Bytes)
deriving DecidableEq, Repr

/-- traceapp/dashboard.go:46-114 `serveDashboardData`. -/
def serveDashboardData (agg : Option Aggregator) (query : Bytes) : DashReply :=
  match agg with
  | none => .disabled
  | some agg =>
    match rangeEnd query b!"start", rangeEnd query b!"end" with
    | some s, some e =>
      match agg s e with
      | none => .failed
      | some results => .data (JVal.print .compact 0 (.arr (results.map rowJSON)))
    | _, _ => .failed

/-- traceapp/app.go:222-239 `serveTraces`: the trace IDs that the page at a URL requests from the store; `none` if the URL leads
to another page. -/
def listedIDs (url : Bytes) : Option (List ID) :=
  match dispatch .get (cutAt 63 url).1 with
  | .to .traces _ => some (showIDs (cutAt 63 url).2)
  | _ => none

end Appdash
