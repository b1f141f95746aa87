import Verif.Model.JsonText
import Verif.Model.Views

/-!
# Model of the trace pages and their permalinks: `App.serveTrace`, `App.serveTraces` and `App.serveAggregate`

Compression (`compress/flate`, `hash/crc32`) is a parameter; the framing of gzip, base64url, query strings and the order of the
steps are written out.  The store is a `MemoryStore`.
-/

namespace Appdash

/-! ## base64.RawURLEncoding -/

/-- The URL-safe alphabet. -/
def urlChar (v : Nat) : UInt8 := if v = 62 then 45 else if v = 63 then 95 else b64Char v

/-- Its inverse. -/
def urlVal (c : UInt8) : Option Nat :=
  if c = 45 then some 62 else if c = 95 then some 63 else if c = 43 ∨ c = 47 then none else b64Val c

/-- What `base64.NewEncoder(base64.RawURLEncoding, w)` has written to `w` when it was given these bytes and has not been closed
(traceapp/app.go:190: `Close` is never called): the last one or two bytes are missing if their number is not divisible by 3. -/
def encodeTriples : Bytes → Bytes
  | a :: b :: c :: rest =>
    let n := a.toNat * 65536 + b.toNat * 256 + c.toNat
    urlChar (n / 262144) :: urlChar (n / 4096 % 64) :: urlChar (n / 64 % 64) :: urlChar (n % 64) :: encodeTriples rest
  | _ => []

/-- The bytes that can be read from groups of four characters; a shorter last group gives one or two bytes. -/
def decodeQuads : Bytes → Bytes
  | c0 :: c1 :: c2 :: c3 :: rest =>
    match urlVal c0, urlVal c1, urlVal c2, urlVal c3 with
    | some d0, some d1, some d2, some d3 =>
      let n := d0 * 262144 + d1 * 4096 + d2 * 64 + d3
      UInt8.ofNat (n / 65536) :: UInt8.ofNat (n / 256 % 256) :: UInt8.ofNat (n % 256) :: decodeQuads rest
    | _, _, _, _ => []
  | [c0, c1, c2] =>
    match urlVal c0, urlVal c1, urlVal c2 with
    | some d0, some d1, some d2 =>
      let n := d0 * 262144 + d1 * 4096 + d2 * 64
      [UInt8.ofNat (n / 65536), UInt8.ofNat (n / 256 % 256)]
    | _, _, _ => []
  | [c0, c1] =>
    match urlVal c0, urlVal c1 with
    | some d0, some d1 => [UInt8.ofNat ((d0 * 262144 + d1 * 4096) / 65536)]
    | _, _ => []
  | _ => []

/-- The bytes that can be read from `base64.NewDecoder(base64.RawURLEncoding, …)` (traceapp/app.go:115) before it fails or ends;
line breaks are skipped. -/
def decodeURL64 (s : Bytes) : Bytes := decodeQuads (s.filter fun c => decide (c ≠ 10 ∧ c ≠ 13))

/-! ## gzip -/

/-- Compression and checksums. -/
structure Flate where
  /-- The compressed form of data written at once, with the final block. -/
  deflate : Bytes → Bytes
  /-- The data that can be read from a stream and, if the final block was reached, what follows it. -/
  inflate : Bytes → Bytes × Option Bytes
  /-- CRC-32, four bytes. -/
  crc : Bytes → Bytes

/-- Four bytes, the lowest first. -/
def le32 (n : Nat) : Bytes := [UInt8.ofNat n, UInt8.ofNat (n / 256), UInt8.ofNat (n / 65536), UInt8.ofNat (n / 16777216)]

/-- The header that `gzip.NewWriter` writes: magic number, method, no flags, no time, no extra flags, unknown system. -/
def gzipHeader : Bytes := [31, 139, 8, 0, 0, 0, 0, 0, 0, 255]

/-- The checksum and size at the end. -/
def Flate.trailer (Z : Flate) (d : Bytes) : Bytes := Z.crc d ++ le32 d.length

/-- `gzip.NewWriter`, one `Write`, `Close`. -/
def Flate.gzip (Z : Flate) (d : Bytes) : Bytes := gzipHeader ++ (Z.deflate d ++ Z.trailer d)

/-- `gzip.NewReader`: `none` if it fails; otherwise the data that can be read, and whether it is followed by the end of the file
(and not by an error).  Simplification: a header with optional fields and a second gzip member count as errors; the page writes
neither. -/
def Flate.gunzip (Z : Flate) : Bytes → Option (Bytes × Bool)
  | 31 :: 139 :: 8 :: 0 :: _ :: _ :: _ :: _ :: _ :: _ :: s =>
    let r := Z.inflate s
    some (r.1, decide (r.2 = some (Z.trailer r.1)))
  | _ => none

/-! ## Permalinks -/

/-- Whether the end of the value is recognised without looking further. -/
def JVal.selfDelimiting : JVal → Bool
  | .arr _ => true
  | .obj _ => true
  | _ => false

/-- `json.Decoder.Decode` on a stream of which these bytes can be read; an error is reported only if the value is not complete
before it. -/
def decodeStream (d : Bytes) (eof : Bool) : Option JVal :=
  match parseVal (d.length + 1) d with
  | none => none
  | some (v, r) => if eof = true ∨ r ≠ [] ∨ v.selfDelimiting = true then some v else none

/-- traceapp/app.go:189-202: the query of the permalink. -/
def permalinkQuery (Z : Flate) (nils : SpanID → Bool × Bool) (tr : Tree) : Bytes :=
  b!"permalink=" ++ encodeTriples (Z.gzip (linkText nils tr))

/-- traceapp/app.go:198-202, 218: the permalink. -/
def permalinkURL (Z : Flate) (nils : SpanID → Bool × Bool) (tr : Tree) : Bytes :=
  urlToTrace tr.span.id.trace ++ 63 :: permalinkQuery Z nils tr

/-- traceapp/app.go:112-126: what a request with a permalink stores; `none` is an error of gzip. -/
def openPermalink (Z : Flate) (ms : MemStore) (link : Bytes) : MemStore × UploadResult :=
  match Z.gunzip (decodeURL64 link) with
  | none => (ms, .badJSON)
  | some (d, eof) =>
    match decodeStream d eof with
    | none => (ms, .badJSON)
    | some v => servePermalink ms v

/-! ## Query strings -/

/-- `url.QueryUnescape`. -/
def queryUnescape : Bytes → Option Bytes
  | [] => some []
  | 37 :: a :: b :: r =>
    match hexVal a, hexVal b, queryUnescape r with
    | some x, some y, some t => some (UInt8.ofNat (x * 16 + y) :: t)
    | _, _, _ => none
  | c :: r =>
    if c = 37 then none
    else
      match queryUnescape r with
      | none => none
      | some t => some ((if c = 43 then 32 else c) :: t)

/-- The parts of a string before and after the first occurrence of a byte; the second is empty if there is none. -/
def cutAt (sep : UInt8) : Bytes → Bytes × Bytes
  | [] => ([], [])
  | c :: s => if c = sep then ([], s) else (c :: (cutAt sep s).1, (cutAt sep s).2)

/-- A setting of a query string; `none` for one that is ignored.  (Before Go 1.17, semicolons also separated settings.) -/
def querySetting (s : Bytes) : Option (Bytes × Bytes) :=
  if s = [] ∨ 59 ∈ s then none
  else
    match queryUnescape (cutAt 61 s).1, queryUnescape (cutAt 61 s).2 with
    | some k, some v => some (k, v)
    | _, _ => none

/-- `url.Values.Get` on the parsed query: the first value of the key, or the empty string. -/
def queryGet (query key : Bytes) : Bytes :=
  match ((splitOn 38 query).filterMap querySetting).find? (fun kv => kv.1 = key) with
  | none => []
  | some kv => kv.2

/-! ## The page of a trace -/

/-- `Store.Trace` of a `MemoryStore`; a trace that is not a finite tree does not occur (C18). -/
def MemStore.lookup (ms : MemStore) (t : ID) : Except StoreErr Tree :=
  match ms.view t with
  | .found tr => .ok tr
  | .notFound => .error .notFound
  | .infinite => .error .notFound

/-- traceapp/app.go:204-219: what the template `trace.html` gets. -/
structure TracePage where
  trace : Tree
  showTimeline : Bool
  visData : List TimelineItem
  profileURL : Bytes
  permalink : Bytes
  json : Bytes
deriving Repr

/-- What a request shows. -/
inductive Shown where
  | page (p : TracePage)
  | profile (ps : List Profile)
deriving Repr

/-- The errors. -/
inductive PageErr where
  | link
  | serve (e : ServeErr)
  | event (e : EventErr)
deriving DecidableEq, Repr

/-- traceapp/app.go:158-219: the page.  The result `none` is a panic. -/
def tracePage (env : ViewEnv) (Z : Flate) (nils : SpanID → Bool × Bool) (tr : Tree) : View PageErr Shown :=
  match d3timeline env tr with
  | none => none
  | some (.error (.event e)) => some (.error (.event e))
  | some (.error .validation) =>
    some (.ok (.page ⟨tr, false, [], spanProfileURL tr.span.id, permalinkURL Z nils tr, exportText nils tr⟩))
  | some (.ok items) =>
    some (.ok (.page ⟨tr, true, items, spanProfileURL tr.span.id, permalinkURL Z nils tr, exportText nils tr⟩))

/-- traceapp/app.go:154-156: the profile. -/
def traceProfile (env : ViewEnv) (tr : Tree) : View PageErr Shown :=
  match calcProfile env tr with
  | none => none
  | some (.error e) => some (.error (.event e))
  | some (.ok (ps, _)) => some (.ok (.profile ps))

/-- traceapp/app.go:128-219, after the permalink. -/
def showTrace (env : ViewEnv) (Z : Flate) (nils : SpanID → Bool × Bool) (ms : MemStore) (path : Bytes) (vars : Vars) :
    View PageErr Shown :=
  match serveTrace ms.lookup path vars with
  | .error e => some (.error (.serve e))
  | .ok (tr, true) => traceProfile env tr
  | .ok (tr, false) => tracePage env Z nils tr

/-- traceapp/app.go:109-220 `App.serveTrace`. -/
def serveTraceRequest (env : ViewEnv) (Z : Flate) (nils : SpanID → Bool × Bool) (ms : MemStore) (path query : Bytes)
    (vars : Vars) : MemStore × View PageErr Shown :=
  if queryGet query b!"permalink" ≠ [] then
    match openPermalink Z ms (queryGet query b!"permalink") with
    | (ms, .ok) => (ms, showTrace env Z nils ms path vars)
    | (ms, .badJSON) => (ms, some (.error .link))
    | (ms, .panic) => (ms, none)
  else (ms, showTrace env Z nils ms path vars)

/-- A GET request for a URL without host: path and query are separated by the first question mark.  Modelled for paths without
`%` (the paths of all URLs that the application makes).  `none`: another handler serves it. -/
def visitURL (env : ViewEnv) (Z : Flate) (nils : SpanID → Bool × Bool) (ms : MemStore) (url : Bytes) :
    Option (MemStore × View PageErr Shown) :=
  match dispatch .get (cutAt 63 url).1 with
  | .to n vars =>
    if servedByTrace n then some (serveTraceRequest env Z nils ms (cutAt 63 url).1 (cutAt 63 url).2 vars) else none
  | _ => none

/-! ## The aggregate page -/

/-- traceapp/app.go:265-282: the traces selected by a comma-separated list of IDs. -/
def selectTraces (traces : List Tree) : List Bytes → Except NumError (List Tree)
  | [] => .ok []
  | s :: ss =>
    match parseID s with
    | .error e => .error e
    | .ok id =>
      match selectTraces traces ss with
      | .error e => .error e
      | .ok l => .ok (traces.filter (fun t => t.span.id.trace = id) ++ l)

/-- The errors of the aggregate page. -/
inductive AggErr where
  | badID (e : NumError)
  | event (e : EventErr)
deriving DecidableEq, Repr

/-- traceapp/app.go:284-293: the aggregation. -/
def aggPage (env : ViewEnv) (mode : AggMode) (ts : List Tree) : View AggErr (AMap Bytes Int) :=
  match aggregate env mode ts with
  | none => none
  | some (.error e) => some (.error (.event e))
  | some (.ok m) => some (.ok m)

/-- traceapp/app.go:254-293 `App.serveAggregate`, given the traces that `Queryer.Traces` returns. -/
def serveAggregate (env : ViewEnv) (traces : List Tree) (query : Bytes) : View AggErr (AMap Bytes Int) :=
  let mode := parseAggMode (queryGet query b!"view-mode")
  let selection := queryGet query b!"selection"
  if selection ≠ [] then
    match selectTraces traces (splitOn 44 selection) with
    | .error e => some (.error (.badID e))
    | .ok ts => aggPage env mode ts
  else aggPage env mode traces

/-! ## The list of traces -/

/-- traceapp/app.go:222-235: the trace IDs passed to `Traces`; texts that are no ID are skipped. -/
def showIDs (query : Bytes) : List ID :=
  if queryGet query b!"show" ≠ [] then
    (splitOn 44 (queryGet query b!"show")).filterMap fun s =>
      match parseID s with
      | .ok id => some id
      | .error _ => none
  else []

end Appdash
