import Verif.Model.Event
import Verif.Model.Times
import Verif.Model.IDGen
import Verif.Model.Recorder
import Verif.Model.Chunked

/-!
# Model of the sample data: `sampleData` (cmd/appdash/sample_data.go), `SendCmd.Execute` (cmd/appdash/send_cmd.go)

The random numbers, the IDs, the clock, the results of `MarshalEvent` and the collector's answers are parameters.  The logger's output is
not modelled.  The numbers are so small that no arithmetic overflows, so `int` and `time.Duration` are unbounded integers.
-/

namespace Appdash

/-- `rand.Intn(m)` (called from sample_data.go:28 and others): `r` is the random number that it reduces; `none` is a panic. -/
def intn (r : Nat) (m : Int) : Option Nat := if m ≤ 0 then none else some (r % m.toNat)

/-- sample_data.go:27-31, the loop of `randomSplit`, with `k` iterations left and the loop variable `i`: the segments that it appends and
the final `sum`. -/
def splitLoop (rs : Nat → Nat) (value n : Int) : Nat → Nat → Int → Option (List Int × Int)
  | 0, _, sum => some ([], sum)
  | k + 1, i, sum =>
    match intn (rs i) ((value - sum).tdiv (n - i) + 1) with
    | none => none
    | some s =>
      match splitLoop rs value n k (i + 1) (sum + s) with
      | none => none
      | some (segments, total) => some ((s : Int) :: segments, total)

/-- sample_data.go:22-33 `randomSplit`; `rs i` is the random number of iteration `i`.  `none` is a panic; `make` panics for a negative
capacity. -/
def randomSplit (rs : Nat → Nat) (value n : Int) : Option (List Int) :=
  if n < 0 then none
  else
    match splitLoop rs value n (n - 1).toNat 1 0 with
    | none => none
    | some (segments, sum) => some (segments ++ [value - sum])

namespace GoTime

/-- The date (year, month, day) of the Gregorian calendar that is `z` days after 1 January 1970, computed as by package time: cycles of 400,
100, 4 and 1 years are cut off.  The years are counted from 1 March of the year 0. -/
def date (z : Int) : Nat × Nat × Nat :=
  let z := z + 719468
  let era := z / 146097
  let r := z % 146097
  let c := r / 36524 - r / 36524 / 4
  let r := r - 36524 * c
  let q := r / 1461
  let r := r - 1461 * q
  let n := r / 365 - r / 365 / 4
  let yday := r - 365 * n
  let mp := (5 * yday + 2) / 153
  let d := yday - (153 * mp + 2) / 5 + 1
  let m := if mp < 10 then mp + 3 else mp - 9
  let y := 400 * era + 100 * c + 4 * q + n + (if m ≤ 2 then 1 else 0)
  (y.toNat, m.toNat, d.toNat)

/-- The time with the instant `i` in a zone with the offset `off`. -/
def ofInstant (off : Int) (i : Int) : GoTime :=
  let s := i / 1000000000 + off * 60
  let (y, m, d) := date (s / 86400)
  let sod := s % 86400
  { year := y, month := m, day := d, hour := (sod / 3600).toNat, min := (sod / 60 % 60).toNat, sec := (sod % 60).toNat,
    nsec := (i % 1000000000).toNat, off := off }

/-- `t.Add(d)` (called from sample_data.go:46, 49, 78, 84): `zone` gives the offset of the local time zone at each instant. -/
def add (zone : Int → Int) (t : GoTime) (d : Int) : GoTime := ofInstant (zone (t.instant + d)) (t.instant + d)

end GoTime

/-- sample_data.go:98-119 `fakeNames`. -/
def fakeNames : List Bytes :=
  [b!"Phafsea", b!"Kraesey", b!"Bleland", b!"Moonuiburg", b!"Zriozruamwell", b!"Erento", b!"Gona", b!"Frence", b!"Hiuwront", b!"Shuplin",
    b!"Luoron", b!"Eproling", b!"Iwruuhville", b!"Ripherough", b!"Sekhunsea", b!"Yery", b!"Fia", b!"Jouver", b!"Strayolis", b!"Grisaso"]

/-- sample_data.go:121-142 `fakeHosts`. -/
def fakeHosts : List Bytes :=
  [b!"api.phafsea.org", b!"web.kraesey.net", b!"www3.bleland.com", b!"mun.moonuiburg", b!"zri.ozruamwe.ll", b!"e.rento", b!"go.na",
    b!"fre.nce", b!"hiu.wront", b!"shu.plin:9090", b!"luoron.net", b!"api.eproling.org", b!"iw.ruuh.ville", b!"riphero.ugh",
    b!"sek.hun.sea", b!"api.ye.ry", b!"fia.com", b!"jouver.io", b!"strayolis.io", b!"grisaso.io"]

/-- What one iteration of the loop of `sampleData` (sample_data.go:38-94) does not determine itself.  The span `j` of the trace is the root
for `j = 0`. -/
structure SampleInput where
  /-- the IDs that `NewRootSpanID` generates -/
  traceID : ID
  rootID : ID
  /-- the ID that `NewSpanID` generates for span `j` -/
  spanID : Nat → ID
  /-- the random numbers for the name, the length, the start, the number of spans, the split and the tags -/
  host : Nat
  length : Nat
  ago : Nat
  count : Nat
  split : Nat → Nat
  tag : Nat → Nat
  /-- the time at which the iteration starts, and at which `Log` is called for span `j` -/
  now : GoTime
  logNow : Nat → GoTime
  /-- the result of `MarshalEvent` for an event of span `j` -/
  marshal : Nat → EventType → GVal → Except RecErr (List Annotation)
  /-- the collector as the recorder of span `j` sees it -/
  env : Nat → RecEnv

/-- The calls to the collector, and the result of `sampleData`: the errors in its message, or `none` for nil. -/
structure SampleRun where
  calls : List RecCall
  result : Option (List RecErr)

/-- sample_data.go:47-52, 76-81: an `SQLEvent`. -/
def sampleSQL (start fin : GoTime) (tag : Nat) : EventType × GVal :=
  (sqlEvent, .struct [.scalar (.string b!"SELECT * FROM table_name;"), .scalar (.string (b!"fakeTag" ++ formatDec tag)),
    .scalar (.time start), .scalar (.time fin)])

/-- The event of `Recorder.Name` (recorder.go:51-53). -/
def nameEv (s : Bytes) : EventType × GVal := (spanNameEvent, .struct [.scalar (.string s)])

/-- sample_data.go:40-53: what the recorder of the root does. -/
def sampleRoot (c : SampleInput) (id : SpanID) (host : Bytes) (start fin : GoTime) (tag : Nat) : Recorder :=
  let events := [nameEv host, sampleSQL start fin tag]
  ((Recorder.new false id).run (c.env 0) ((events.map fun e => .event (c.marshal 0 e.1 e.2)) ++ [.finish])).1

/-- sample_data.go:66-72, 76-81: the events of span `j` of trace `i`. -/
def sampleSpanEvents (c : SampleInput) (i j : Nat) (start fin : GoTime) (tag : Nat) : List (EventType × GVal) :=
  [nameEv (fakeNames.getD ((j + i) % fakeNames.length) [])] ++
    (if j % 3 = 0 then [(logEvent, .struct [.scalar (.string b!"hello"), .scalar (.time (c.logNow j))])] else []) ++
    (if j % 5 = 0 then [(msgEvent, .struct [.scalar (.string b!"hi")])] else []) ++
    [sampleSQL start fin tag]

/-- sample_data.go:61-93: the loop over the spans, with `k` iterations left, the loop variable `j`, the span ID of the predecessor and the
start time.  `none` is a panic. -/
def sampleDataSpans (zone : Int → Int) (c : SampleInput) (i : Nat) (times : List Int) :
    Nat → Nat → SpanID → GoTime → Option SampleRun
  | 0, _, _, _ => some ⟨[], none⟩
  | k + 1, j, last, start =>
    let id := newSpanID last (c.spanID j)
    match times[j - 1]? with
    | none => none
    | some ms =>
      let fin := start.add zone (ms * 1000000)
      match intn (c.tag j) 10 with
      | none => none
      | some tag =>
        let events := sampleSpanEvents c i j start fin tag
        let (r, errs) := (Recorder.new false id).run (c.env j) ((events.map fun e => .event (c.marshal j e.1 e.2)) ++ [.errors])
        if errs.length > 0 then some ⟨r.calls, some errs⟩
        else
          let r := r.finish (c.env j)
          match sampleDataSpans zone c i times k (j + 1) id fin with
          | none => none
          | some rest => some ⟨r.calls ++ rest.calls, rest.result⟩

/-- sample_data.go:39-93: one iteration of the loop over the traces. -/
def sampleDataTrace (zone : Int → Int) (c : SampleInput) (i : Nat) : Option SampleRun :=
  let id := newRootSpanID c.traceID c.rootID
  match intn c.host fakeHosts.length, intn c.length 1000, intn c.ago 100, intn (c.tag 0) 10, intn c.count (7 - 3) with
  | some host, some length, some ago, some tag, some count =>
    let start := c.now.add zone (-(ago * 60000000000))
    let fin := start.add zone (length * 1000000)
    let root := sampleRoot c id (fakeHosts.getD host []) start fin tag
    let numSpans := count + 3
    match randomSplit c.split length numSpans with
    | none => none
    | some times =>
      match sampleDataSpans zone c i times numSpans 1 id start with
      | none => none
      | some rest => some ⟨root.calls ++ rest.calls, rest.result⟩
  | _, _, _, _, _ => none

/-- sample_data.go:38-95: the loop over the traces, with `k` iterations left and the loop variable `i`. -/
def sampleLoop (zone : Int → Int) (cs : Nat → SampleInput) : Nat → Nat → Option SampleRun
  | 0, _ => some ⟨[], none⟩
  | k + 1, i =>
    match sampleDataTrace zone (cs i) i with
    | none => none
    | some r =>
      match r.result with
      | some errs => some ⟨r.calls, some errs⟩
      | none =>
        match sampleLoop zone cs k (i + 1) with
        | none => none
        | some rest => some ⟨r.calls ++ rest.calls, rest.result⟩

/-- sample_data.go:35-96 `sampleData`. -/
def sampleData (zone : Int → Int) (cs : Nat → SampleInput) : Option SampleRun := sampleLoop zone cs 60 1

/-- The errors that `SendCmd.Execute` returns. -/
inductive SendErr where
  | unknownProto (proto : Bytes)
  | recorder (errs : List RecErr)
  | flush (e : Chunked.Err)

/-- send_cmd.go:36-66 `SendCmd.Execute`, as a relation: it makes the calls `calls` to the `RemoteCollector` and returns `result`.  The
`ChunkedCollector` (48-51) is not passed to `sampleData` (54), so it is flushed (60) without a call of `Collect` before.  The flush calls
the same `RemoteCollector`; what it sends is in the history of the `ChunkedCollector`. -/
inductive SendReturns (zone : Int → Int) (cs : Nat → SampleInput) (proto : Bytes) : List RecCall → Option SendErr → Prop
  | unknown : proto ≠ b!"tcp" → proto ≠ b!"tls" → SendReturns zone cs proto [] (some (.unknownProto proto))
  | failed (calls : List RecCall) (errs : List RecErr) : proto = b!"tcp" ∨ proto = b!"tls" →
      sampleData zone cs = some ⟨calls, some errs⟩ → SendReturns zone cs proto calls (some (.recorder errs))
  | done (calls : List RecCall) (s : Chunked.State) (f : Nat) (e : Option Chunked.Err) : proto = b!"tcp" ∨ proto = b!"tls" →
      sampleData zone cs = some ⟨calls, none⟩ →
      Chunked.Reachable { maxQueueSize := 0, flushTimeout := false } s → (∀ d fate err, .collect d fate err ∉ s.history) →
      .flushEnd f e ∈ s.history → SendReturns zone cs proto calls (e.map .flush)

end Appdash
