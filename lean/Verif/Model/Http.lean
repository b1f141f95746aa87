import Verif.Model.Event
import Verif.Model.IDGen
import Verif.Model.Recorder

/-!
# Model of package httptrace: headers, client transport and server middleware

`http.Header` maps are association lists; where Go iterates over them, every order is allowed.  IDs come from a supply
`src 0, src 1, …`, as in `Verif.Model.IDGen`; a function that generates IDs takes the number of IDs used so far and returns the
new one.
-/

namespace Appdash

/-- `http.Header`: a map from names to lists of values. -/
abbrev Header := AMap Bytes (List Bytes)

/-- `validHeaderFieldByte` of net/textproto: the characters of a token (RFC 7230). -/
def tokenByte (c : UInt8) : Bool :=
  (48 ≤ c && c ≤ 57) || (65 ≤ c && c ≤ 90) || (97 ≤ c && c ≤ 122) || (b!"!#$%&'*+-.^_`|~").contains c

/-- An ASCII letter in lower case. -/
def lowerByte (c : UInt8) : UInt8 := if 65 ≤ c && c ≤ 90 then c + 32 else c

/-- An ASCII letter in upper case. -/
def upperByte (c : UInt8) : UInt8 := if 97 ≤ c && c ≤ 122 then c - 32 else c

/-- The loop of `textproto.CanonicalMIMEHeaderKey`: the first letter and those after a hyphen in upper case, others in lower
case. -/
def canonLoop : Bool → Bytes → Bytes
  | _, [] => []
  | upper, c :: s => (if upper then upperByte c else lowerByte c) :: canonLoop (c == 45) s

/-- `http.CanonicalHeaderKey` (called from httptrace/client.go:99, and by `Header.Get` and `Header.Set`): a name with a character
that is not allowed in names is left unchanged. -/
def canonicalKey (k : Bytes) : Bytes := if k.all tokenByte then canonLoop true k else k

/-- `Header.Get`: the first value, or the empty string. -/
def Header.find (h : Header) (key : Bytes) : Bytes :=
  match AMap.get h (canonicalKey key) with
  | some (v :: _) => v
  | _ => []

/-- `Header.Set`. -/
def Header.put (h : Header) (key value : Bytes) : Header := AMap.set h (canonicalKey key) [value]

/-- httptrace/header.go:12 `HeaderSpanID`. -/
def headerSpanID : Bytes := b!"Span-ID"

/-- httptrace/header.go:20 `HeaderParentSpanID`. -/
def headerParentSpanID : Bytes := b!"Parent-Span-ID"

/-- httptrace/header.go:24-26 `SetSpanIDHeader`. -/
def setSpanIDHeader (h : Header) (e : SpanID) : Header := h.put headerSpanID e.toText

/-- httptrace/header.go:70-76 `getSpanIDHeader`. -/
def getSpanIDHeader (h : Header) (key : Bytes) : Except SpanIDError (Option SpanID) :=
  let s := h.find key
  if s = [] then .ok none
  else
    match parseSpanID s with
    | .error e => .error e
    | .ok id => .ok (some id)

/-- What `getSpanID` returns, and the number of IDs used afterwards. -/
structure SpanIDResult where
  /-- `none` is a nil pointer -/
  spanID : Option SpanID
  fromHeader : Bytes
  err : Option SpanIDError
  used : Nat
deriving DecidableEq, Repr

/-- httptrace/header.go:37-65 `getSpanID`. -/
def getSpanIDFrom (src : Nat → ID) (n : Nat) (h : Header) : SpanIDResult :=
  match getSpanIDHeader h headerSpanID with
  | .error e => ⟨none, headerSpanID, some e, n⟩
  | .ok (some id) => ⟨some id, headerSpanID, none, n⟩
  | .ok none =>
    match getSpanIDHeader h headerParentSpanID with
    | .error e => ⟨none, headerParentSpanID, some e, n⟩
    | .ok (some id) => ⟨some (newSpanID id (src n)), headerParentSpanID, none, n + 1⟩
    | .ok none => ⟨some (newRootSpanID (src n) (src (n + 1))), [], none, n + 2⟩

/-- httptrace/header.go:32-35 `GetSpanID`. -/
def getSpanID (src : Nat → ID) (n : Nat) (h : Header) : Option SpanID × Option SpanIDError :=
  let r := getSpanIDFrom src n h
  (r.spanID, r.err)

/-! ## Recorded headers -/

/-- What redaction depends on: httptrace/client.go:15 `RedactedHeaders`, which the user may change, and how `strings.EqualFold`
answers when one of its arguments is not pure ASCII, which is left open. -/
structure Redaction where
  names : List Bytes
  fold : Bytes → Bytes → Bool

/-- Pure ASCII. -/
def ascii (s : Bytes) : Bool := s.all (· < 128)

/-- `strings.EqualFold` (called from httptrace/client.go:106). -/
def equalFold (fold : Bytes → Bytes → Bool) (s t : Bytes) : Bool :=
  if ascii s && ascii t then s.map lowerByte == t.map lowerByte else fold s t

/-- httptrace/client.go:104-111 `isRedacted`. -/
def isRedacted (red : Redaction) (name : Bytes) : Bool := red.names.any fun v => equalFold red.fold name v

/-- httptrace/client.go:77-79 `redacted`. -/
def redactedValue : List Bytes := [b!"REDACTED"]

/-- httptrace/client.go:83-89: the loop over the header. -/
def redactHeaderLoop (red : Redaction) : List (Bytes × List Bytes) → Header → Header
  | [], h => h
  | (k, v) :: es, h => redactHeaderLoop red es (AMap.set h k (if isRedacted red k then redactedValue else v))

/-- httptrace/client.go:90-96: the loop over the trailer.  (`append` may write to the spare capacity of
the backing array of the caller's slice; Model/HeaderSlices.lean models that.) -/
def redactTrailerLoop (red : Redaction) : List (Bytes × List Bytes) → Header → Header
  | [], h => h
  | (k, v) :: es, h =>
    redactTrailerLoop red es (AMap.set h k (if isRedacted red k then redactedValue else (AMap.get h k).getD [] ++ v))

/-- `strings.Join(v, ",")` (httptrace/client.go:99). -/
def joinComma : List Bytes → Bytes
  | [] => []
  | [v] => v
  | v :: vs => v ++ 44 :: joinComma vs

/-- httptrace/client.go:97-100: the loop that fills the result. -/
def joinLoop : List (Bytes × List Bytes) → AMap Bytes Bytes → AMap Bytes Bytes
  | [], m => m
  | (k, v) :: es, m => joinLoop es (AMap.set m (canonicalKey k) (joinComma v))

/-- httptrace/client.go:81-102 `redactHeaders`, as a relation between its arguments and a possible result: each of the three loops
goes through its map in any order. -/
def RedactsTo (red : Redaction) (header trailer : Header) (m : AMap Bytes Bytes) : Prop :=
  ∃ hs ts es : List (Bytes × List Bytes), hs.Perm header ∧ ts.Perm trailer ∧
    es.Perm (redactTrailerLoop red ts (redactHeaderLoop red hs [])) ∧ m = joinLoop es []

/-! ## Requests and responses -/

/-- The parts of an `http.Request` that httptrace uses.  `uri` is `URL.RequestURI()`.  `header` is a pointer to a map, because maps
are shared by assignment; a nil map is an empty one here, since nothing writes to it. -/
structure Request where
  method : Bytes
  uri : Bytes
  urlHost : Bytes
  urlPath : Bytes
  proto : Bytes
  host : Bytes
  remoteAddr : Bytes
  contentLength : Int
  header : Nat
  trailer : Header
deriving DecidableEq, Repr

/-- The header maps that exist, by address. -/
abbrev HeaderHeap := List Header

/-- The header of a request. -/
def Request.headerIn (r : Request) (heap : HeaderHeap) : Header := heap[r.header]?.getD []

/-- The parts of an `http.Response` that httptrace uses. -/
structure Response where
  header : Header
  trailer : Header
  contentLength : Int
  statusCode : Int
deriving DecidableEq, Repr

/-- A string field of an event. -/
def gString (s : Bytes) : GVal := .scalar (.string s)

/-- A map of strings as a field of an event. -/
def gStrings (m : AMap Bytes Bytes) : GVal := .map (m.map fun e => (e.1, .string e.2))

/-- httptrace/client.go:39-49 `requestInfo`, given a result of `redactHeaders`. -/
def requestInfo (r : Request) (headers : AMap Bytes Bytes) : GVal :=
  .struct [gString r.method, gString r.uri, gString r.proto, gStrings headers, gString r.host, gString r.remoteAddr,
    .scalar (.int r.contentLength)]

/-- httptrace/server.go:34-40 `responseInfo`, given a result of `redactHeaders`. -/
def responseInfo (r : Response) (headers : AMap Bytes Bytes) : GVal :=
  .struct [gStrings headers, .scalar (.int r.contentLength), .scalar (.int r.statusCode)]

/-- A `ResponseInfo` with nothing but a status code (httptrace/client.go:164). -/
def statusOnly (code : Int) : GVal := .struct [gStrings [], .scalar (.int 0), .scalar (.int code)]

/-! ## The client -/

/-- httptrace/client.go:173-183 `cloneRequest`: the new map is at a new address. -/
def cloneRequest (heap : HeaderHeap) (r : Request) : HeaderHeap × Request :=
  (heap ++ [r.headerIn heap], { r with header := heap.length })

/-- What `Transport.RoundTrip` depends on besides the request: the recorder's span, `SetName`, the redaction, the collector, the
supply of IDs, the underlying transport, and what the clock says before and after.  The underlying transport gets the request and
its header, and leaves the header maps as they are, as `http.RoundTripper` demands; it may fail. -/
structure ClientEnv where
  span : SpanID
  setName : Bool
  red : Redaction
  collector : RecEnv
  src : Nat → ID
  transport : Request → Header → Except Bytes Response
  sendTime : GoTime
  recvTime : GoTime

/-- What has happened when `Transport.RoundTrip` returns: the header maps, the request as sent and its header, the recorder used for the
request, and what is returned. -/
structure ClientRun where
  heap : HeaderHeap
  sent : Request
  sentHeader : Header
  recorder : Recorder
  result : Except Bytes Response
  used : Nat

/-- The value of the `SpanNameEvent` that `Recorder.Name` records (recorder.go:53-55). -/
def nameValue (name : Bytes) : GVal := .struct [gString name]

/-- A recorder on which a name, if any, and an event are recorded before `Finish` is called
(httptrace/client.go:141-144, 166-167; httptrace/server.go:103-110), as a relation between these and the recorder afterwards:
`MarshalEvent` produces annotations in any order. -/
def RecordsEvent (env : RecEnv) (span : SpanID) (name : Option Bytes) (E : EventType) (v : GVal) (r : Recorder) : Prop :=
  ∃ nameAs eventAs, (match name with
    | none => nameAs = []
    | some s => ∃ as, Marshals spanNameEvent (nameValue s) (.ok as) ∧ nameAs = [RecOp.event (.ok as)]) ∧
    Marshals E v (.ok eventAs) ∧
    r = ((Recorder.new false span).run env (nameAs ++ [.event (.ok eventAs), .finish])).1

/-- httptrace/client.go:156-161: the response in the client event. -/
def RecordedResponse (red : Redaction) : Except Bytes Response → GVal → Prop
  | .ok resp, info => ∃ m, RedactsTo red resp.header resp.trailer m ∧ info = responseInfo resp m
  | .error _, info => info = statusOnly (-1)

/-- httptrace/client.go:133-169 `Transport.RoundTrip`, as a relation between the state before and a possible outcome.  The bookkeeping for
`CancelRequest` is left out. -/
def RoundTrips (env : ClientEnv) (n : Nat) (heap : HeaderHeap) (original : Request) (out : ClientRun) : Prop :=
  let (heap1, req) := cloneRequest heap original
  let child := newSpanID env.span (env.src n)
  let span := newSpanID env.span (env.src (n + 1))
  let header := setSpanIDHeader (req.headerIn heap1) span
  let heap2 := heap1.set req.header header
  let resp := env.transport req header
  out.heap = heap2 ∧ out.sent = req ∧ out.sentHeader = req.headerIn heap2 ∧ out.result = resp ∧ out.used = n + 2 ∧
    ∃ reqHeaders respInfo, RedactsTo env.red (req.headerIn heap2) req.trailer reqHeaders ∧
      RecordedResponse env.red resp respInfo ∧
      RecordsEvent env.collector child (if env.setName then some (b!"Request " ++ req.urlHost) else none) clientEvent
        (.struct [requestInfo req reqHeaders, respInfo, .scalar (.time env.sendTime), .scalar (.time env.recvTime)]) out.recorder

/-! ## The server -/

/-- The calls of a handler on its `http.ResponseWriter`. -/
inductive WriterOp where
  | writeHeader (code : Int)
  | write (b : Bytes)
  | flush
deriving DecidableEq, Repr

/-- The response writer of net/http: the status sent, once it is sent, and the body written so far.  The first `WriteHeader`, or
the first `Write` or `Flush` before it, sends the status; later `WriteHeader` calls are ignored.  (Newer versions of net/http send
informational statuses, below 200, in addition and refuse numbers that are no status; that is not modelled.) -/
structure NetWriter where
  sent : Option Int
  body : Bytes
deriving DecidableEq, Repr

/-- A call on net/http's response writer. -/
def NetWriter.step (w : NetWriter) : WriterOp → NetWriter
  | .writeHeader code => { w with sent := some (w.sent.getD code) }
  | .write b => { sent := some (w.sent.getD 200), body := w.body ++ b }
  | .flush => { w with sent := some (w.sent.getD 200) }

/-- The status that the client receives: when the handler returns, net/http sends 200 if nothing was sent. -/
def NetWriter.status (w : NetWriter) : Int := w.sent.getD 200

/-- httptrace/server.go:153-158 `responseInfoRecorder`; `canFlush` tells whether the underlying writer implements
`http.Flusher`. -/
structure ResponseRecorder where
  statusCode : Int
  contentLength : Int
  under : NetWriter
  canFlush : Bool
deriving DecidableEq, Repr

/-- httptrace/server.go:161-167 `Write`, 177-180 `WriteHeader` and 195-199 `Flush`. -/
def ResponseRecorder.step (r : ResponseRecorder) : WriterOp → ResponseRecorder
  | .write b =>
    { r with contentLength := r.contentLength + b.length, statusCode := if r.statusCode = 0 then 200 else r.statusCode,
             under := r.under.step (.write b) }
  | .writeHeader code => { r with statusCode := code, under := r.under.step (.writeHeader code) }
  | .flush => if r.canFlush then { r with under := r.under.step .flush } else r

/-- A sequence of calls. -/
def ResponseRecorder.run (r : ResponseRecorder) (ops : List WriterOp) : ResponseRecorder := ops.foldl step r

/-- httptrace/server.go:87: the recorder that wraps a new response writer. -/
def ResponseRecorder.new (canFlush : Bool) : ResponseRecorder := ⟨0, 0, ⟨none, []⟩, canFlush⟩

/-- httptrace/server.go:169-174 `StatusCode`. -/
def ResponseRecorder.status (r : ResponseRecorder) : Int := if r.statusCode = 0 then 200 else r.statusCode

/-- httptrace/server.go:184-190 `partialResponse`. -/
def ResponseRecorder.partialResponse (r : ResponseRecorder) (header : Header) : Response :=
  { header := header, trailer := [], contentLength := r.contentLength, statusCode := r.status }

/-- What a handler does: its calls on the response writer, the response header as it leaves it, and the request with its header as it
leaves them (a handler can modify both). -/
structure HandlerRun where
  ops : List WriterOp
  header : Header
  request : Request
  requestHeader : Header

/-- What the middleware depends on besides the request: the redaction, the collector, the supply of IDs, `RouteName` and `CurrentUser` of
the configuration if they are set, the next handler, and what the clock says.  The handler is called with the request, its header
and the span that it finds in the context (or that `SetContextSpan` was called with); `none` means that it panics. -/
structure ServerEnv where
  red : Redaction
  collector : RecEnv
  src : Nat → ID
  routeName : Option (Request → Header → Bytes)
  currentUser : Option (Request → Header → Bytes)
  next : Request → Header → SpanID → Option HandlerRun
  canFlush : Bool
  recvTime : GoTime
  sendTime : GoTime

/-- What has happened when the middleware is done: the call of the next handler, if any, whether there was a panic, the warning logged, the
response writer, and the recorder used, if any. -/
structure ServerRun where
  passed : Option (Request × Header × SpanID)
  panicked : Bool
  warned : Bool
  writer : ResponseRecorder
  recorder : Option Recorder
  used : Nat

/-- httptrace/server.go:92-97: a function of the configuration is called if it is set. -/
def callIfSet (f : Option (Request → Header → Bytes)) (r : Request) (h : Header) : Bytes :=
  match f with
  | none => []
  | some f => f r h

/-- httptrace/server.go:70-111: the function that `Middleware` returns, as a relation between a request and a possible outcome. -/
def Serves (env : ServerEnv) (n : Nat) (r : Request) (h : Header) (out : ServerRun) : Prop :=
  let g := getSpanIDFrom env.src n h
  out.warned = g.err.isSome ∧ out.used = g.used ∧
  match g.spanID with
  | none => out.passed = none ∧ out.panicked = true ∧ out.writer = .new env.canFlush ∧ out.recorder = none
  | some spanID =>
    out.passed = some (r, h, spanID) ∧
    match env.next r h spanID with
    | none => out.panicked = true ∧ out.recorder = none
    | some run =>
      out.panicked = false ∧ out.writer = (ResponseRecorder.new env.canFlush).run run.ops ∧
      let route := callIfSet env.routeName run.request run.requestHeader
      let user := callIfSet env.currentUser run.request run.requestHeader
      let resp := out.writer.partialResponse (setSpanIDHeader run.header spanID)
      ∃ reqInfo respHeaders rec,
        (if g.fromHeader = headerSpanID then ∃ m, RedactsTo env.red h r.trailer m ∧ reqInfo = requestInfo r m
          else ∃ m, RedactsTo env.red run.requestHeader run.request.trailer m ∧ reqInfo = requestInfo run.request m) ∧
        RedactsTo env.red resp.header resp.trailer respHeaders ∧
        RecordsEvent env.collector spanID
          (some (b!"Serve " ++ if route ≠ [] then route else run.request.urlHost ++ run.request.urlPath)) serverEvent
          (.struct [reqInfo, responseInfo resp respHeaders, gString route, gString user, .scalar (.time env.recvTime),
            .scalar (.time env.sendTime)]) rec ∧
        out.recorder = some rec

end Appdash
