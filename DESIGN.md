# Formal model of sourcegraph/appdash in Lean 4

The model lives in `lean/Verif`.  `properties.jsonl` holds the English properties (C01, C02, ...),
`MANIFEST.json` maps each of them to the theorems that establish it, and `seeded/LOG.jsonl` records
the wrong programs the theorems were tested against.  Where an edit turned out to leave the claim
named at first true, the line names the claim that it does break, or says `none` and why; lines whose names end in
`-again` repeat an earlier attempt after the theorems had been tightened.

## Layout

| directory | content |
|---|---|
| `Verif/Prelude.lean` | byte strings, association maps, general list lemmas |
| `Verif/Model/*.lean` | the model of the Go and Python code, function by function, each definition citing file and lines |
| `Verif/Spec/*.lean` | small specifications, independent of the model's helpers |
| `Verif/Proofs/*.lean` | helper lemmas and invariants |
| `Verif/Properties/*.lean` | the property theorems and, beside each one, an `example` or a witness meeting its hypotheses |

## Trusted base

* Lean 4.33.0's kernel.  No theorem depends on an axiom besides `propext`, `Classical.choice` and `Quot.sound`;
  the list per theorem is at the end of this file.
* No `sorry`, `admit`, `native_decide`, `bv_decide`, user axioms, `unsafe` or `implemented_by`.  Concrete witnesses are
  evaluated by the kernel (`decide`, `decide_cbv`, `rfl`).
* The correspondence between the Go text in `/repo` and the definitions in `Verif/Model`.  It was made by
  reading; each definition cites the lines it models and says where it simplifies.
* The behaviour of the Go runtime and of libraries, as modelled:
  * `sync.Mutex`, `sync.RWMutex`, `sync.Once`, maps, slices, channels, `select`, goroutines;
  * `strconv` (decimal integers and floating-point numbers; no hexadecimal numerals and underscores), `float64` arithmetic as rounding to nearest, `fmt` for `%016x`, `strings`, `sort`, `time.Format`/`Parse` for RFC 3339 with nanoseconds (written out
    and proved to invert each other), the calendar;
  * gogo/protobuf's proto2 encoding and delimited streams (written out at the level of bytes);
  * `encoding/gob`: values are copied structurally, pointers are flattened, empty slices become nil;
  * `encoding/json`: its text syntax (escapes, white space, numbers), UTF-8 replacement, base64 byte slices and the decoding
    into structs are written out, as are base64url, the framing of gzip and query strings; `compress/flate` and CRC-32 are
    parameters (decompression inverts compression); newer Go versions limit the nesting of decoded JSON to 10000, which is not
    modelled; the text that `json.Marshal` makes of OpenTracing log fields is a parameter;
  * `net/http`: canonical header names, the response writer (status line, header snapshot, bodies dropped for 1xx, 204
    and 304, panic for invalid statuses as in Go 1.11 and later), delivery of headers by the network;
  * `strings.EqualFold` for ASCII; beyond ASCII it is an arbitrary relation;
  * gorilla/mux and gorilla/context for the routes of `traceapp`;
  * `os.Rename` is atomic; a crash is a crash of the process (no loss of data that was written but not synced);
  * Python's protobuf runtime for the fields used, dictionaries in any order, `socket.send`, Twisted's single event loop;
  * AES is an arbitrary permutation of 128-bit blocks.

## Modelling conventions

* `ID` is `UInt64`; Go strings and byte slices are `List UInt8` (literals are written `b!"..."`).
  A nil byte slice is distinguished from an empty one where Go code can tell them apart.
* Go maps are association lists with `get/set/del`; where Go iterates over a map, the theorem is stated for
  every permutation of the entries.
* Pointers are addresses in an explicit heap, so sharing and mutation are visible.
* Run-time panics (nil dereference, close of a nil channel, explicit `panic`) are explicit results.
* Concurrency is modelled by transition systems whose steps are the individual lock-protected sections
  (or, for mutex atomicity, the individual memory steps); schedules are arbitrary step sequences.
* Clocks are arbitrary (monotone where stated) integers.

## What is modelled and what is not

| file | modelled | not modelled |
|---|---|---|
| id.go | all | the reading of the key from the system's random source (the key is arbitrary) |
| span.go | IDs, parsing, `Name`, `schemas`, `get`, `StringMap`, `Annotation.Important`, `SpanID.Format`, `Span.String`, `Annotations.String` | the table of printable characters beyond ASCII that `%q` uses is a parameter |
| event.go, reflect.go | all events, marshalling, registry, both directions of reflection; pointers, interfaces, types with a `String` method and nested maps/slices in a second, larger model (`Verif.Model.ReflectRich`) that agrees with the first | `String` methods with a pointer receiver, reading events of the larger model into non-zero values, map keys that are structs |
| recorder.go | all, also with several goroutines; slices shared with stores and collectors (`Verif.Model.Slices`) | two concurrent `append` calls writing to the same array |
| collector.go | local, remote, chunked collectors (also with time), server loop, accept loop with many clients, packets, messages of the `Debug`/`Trace` switches, mutexes (`Verif.Model.Locks`) | TLS, the text of error messages |
| store.go | `MemoryStore`, `LimitStore`, `RecentStore`, `PersistEvery`, `Write`/`ReadFrom`, `deleteSubNoLock` | `DeleteStore` wrappers of other packages |
| multi.go | all | |
| trace.go | trees, `FindSpan`, `TimespanEvent`, sorting, `TreeString`, `String` | |
| memstats.go | all, with the numbers of `runtime.ReadMemStats` as an argument | what is printed before a panic |
| httptrace | header functions, middleware, transport with cancellation, redaction (also on shared slices), response recorder and the response behind it | http.CloseNotifier (not offered by the recorder either) |
| sqltrace | the event type | |
| opentracing | `RecordSpan`, log materialisation, logger | basictracer itself |
| traceapp | requests to responses as a whole (routes, handlers, template cache), router, upload, export, permalink, profile, aggregate, timeline, buffered pages, dashboard data, annotation tables and list of traces as HTML, data in scripts, the timeline's menu, labels and sort buttons, the view buttons, the menus Traces and View Mode, the dashboard's slider and requests | the rest of the templates and scripts, static files; the compiled-in copies of `aggregate.html` and `layout.html` (traceapp/tmpl/data_vfsdata.go) are older than the files in traceapp/tmpl/data and differ in two style sheet details, none of them modelled |
| python/appdash | span IDs, serialisation, socket and Twisted collectors, events, recorder | `debug` logging, connecting, custom sockets, the clock and `strict_rfc3339` |
| cmd/appdash | basic authentication; store, store file, eviction, base URL and restarts of `serve`; `send` and the sample data; the handler and the URLs of `demo` | flag parsing, listening |
| examples/cmd/webapp | the two handlers, the middleware, the store, the link | the middleware of Negroni, redirects of the router |
| examples/cmd/webapp-opentracing | the spans of the two handlers, the link | basictracer (by its contract: IDs, tags, baggage, logs), `Inject` and `Extract` |

## Disagreements found

Claims that reading suggested and that are false of the code.  Each has a property of its own whose full statement is a
`def … : Prop` in the file of properties, a theorem that it is false, and `_partial` theorems for what is true.

| id | what the code does |
|---|---|
| C10 | packets above 1 MiB are accepted by the client and kill the server's connection |
| C11 | a packet without the optional parent field makes the server dereference nil |
| C16 | `Stop` does not wait for a running flush, later `Flush` calls still send; it panics if not started or called twice |
| C17 | a second failed background flush overwrites the first error |
| C28 | traces returned by `Trace` share memory with the store and change with later collection |
| C30 | after `ReadFrom` the two maps of the store no longer share nodes, so later updates of old spans are not shown (exactly what is shown is C131) |
| C32, C33 | the ring of `LimitStore` uses trace ID 0 for a free slot |
| C47 | after logging that it goes on, the middleware dereferences a nil span ID for a malformed header |
| C58 | `MemoryStore.Traces` ignores the requested trace IDs |
| C59 | a detached cycle of spans makes `Write` recurse for ever |
| C60, C61 | `RecentStore` deletes later, in a goroutine, and a late `Collect` can evict its own trace and leak it |
| C62, C63 | empty slices and structs, clashing names and several events of one type lose data in marshalling |
| C64 | zero and far-future times confuse `TimespanEvent` |
| C65 | a first duration of zero is counted as one in the aggregation |
| C66, C67 | an untimed span hides the spans below it; all timespans of a root carry the first duration |
| C68 | a late `WriteHeader` is recorded though the client never sees it |
| C69 | depth-first upload changes the root of a trace with several parentless spans; invalid UTF-8 in keys is replaced |
| C70 | an upload may contain spans of other traces, which are merged into them |
| C71 | a failing upload keeps what it collected before the failure |
| C76 | the Python collector goes on after a failed send in the middle of a packet, and threads share the socket without a lock |
| C78 | Twisted collectors share a class-level list of pending packets; flushing while disconnected discards packets |
| C79 | the Python recorder raises for any baggage (misspelt attribute) and for tags that are no strings |
| C81 | Python's HTTP events use field names that Go does not know; response items replace request items |
| C89 | `CancelRequest` after `RoundTrip` returned does nothing |
| C91 | a response that the handler wrote itself does not name its span; `Hijacker` is hidden |
| C93 | the links of a second parentless span lead to the whole trace |
| C96 | the timeline's menu never ends if the root claims a span below it as its parent; Hide Children on the root leaves out spans whose parent was not collected |
| C97 | `appdash serve` never deletes traces that it read from its store file and that get no new span, whatever `--delete-after` says |
| C99 | two concurrent calls of `Event` on a recorder can lose an event without an error; two concurrent calls of `Finish` can both send |
| C100 | durations lose up to a nanosecond when an event is read (249 ns becomes 248 ns); the longest duration becomes negative |
| C101 | `float64` fields are read with the precision of a `float32`; one of 2^128 or more makes `UnmarshalEvent` drop it and all later fields without an error |
| C102 | a nil pointer in an event makes `MarshalEvent` (and so `Recorder.Event`) panic (reflect.go:14, 29) |
| C103 | an event with a pointer to a struct or an interface can be recorded, but reading it panics (reflect.go:215, 241); pointers to `time.Time`, and events whose type has a `String` method, are lost without an error |
| C104 | an annotation with a negative index (`Tags.-1`) makes reading an event with a slice panic (reflect.go:305) |
| C106 | `TreeString` writes annotation values with their line breaks, so a client can forge any subtree in the text (trace.go:86) |
| C107 | `appdash send` returns nil even if every call to the collector fails: errors are asked for before `Finish`, never for root spans, and the flushed collector is not the one used (cmd/appdash/sample_data.go:53, 87-92; send_cmd.go:48-62) |
| C109 | the documented example of `SpanID.Format` puts the query into the comment and leaves `%!s(MISSING)` outside (span_test.go:86) |
| C112 | `Start` never returns: after the listener is closed it logs errors without bound (collector.go:426-440) |
| C113 | the default base URL loses the brackets of IPv6 addresses and is http also with TLS (cmd/appdash/serve_cmd.go:196-199) |
| C114 | under a path the pages' scripts or links break: `{{.BaseURL}}static/` lacks a slash, `StripPrefix` ignores subrouters (traceapp/app.go:94, layout.html:89) |
| C116 | an event recorded after `Finish` can overwrite what another recorder has sent: slices are kept and appended to in place (recorder.go:80, 98; store.go:125, 133; collector.go:192-196) |
| C117 | overlapping calls of a `MultiStore` for one span lose and repeat annotations: its stores append to the same array (multi.go:12-19, store.go:125, 133) |
| C118 | queued annotations wait longer than `MinInterval`, as the timer is started only when the running flush has ended; without `FlushTimeout` they can wait for ever longer (collector.go:71-74, 249-262) |
| C120 | of several logs of an OpenTracing span only the last is shown, as often as there are logs (opentracing/recorder.go:57-63 uses the same keys for each); tags called `Name`, `Msg`, `Time` or `_schema:...` are taken for parts of events |
| C121 | a `Flush` called during another flush may overtake it, so that a span's annotations arrive in another order (collector.go:207-244) |
| C123 | after a `RemoteCollector` has dialled again, the server may store later collections before earlier ones (collector.go:438: one goroutine for each connection) |
| C124 | `RegisterEvent` accepts a pointer to an event, and `UnmarshalEvents` panics on its annotations (event.go:142-143: a pointer to a pointer has no methods) |
| C127 | of requests whose handler panics nothing is recorded: the recorder is made after the handler has returned, without `defer` |
| C128 | a Read of an embedded file beyond its end leaves the decompressor at the end but its noted position unchanged (data_vfsdata.go:155-162), so later reads within the file find nothing |
| C133 | pages of traces that do not exist are answered with 500 instead of 404 (traceapp/app.go:126-148, handler.go) |
| C134 | one failed load of the templates breaks all pages until the process is restarted, if `ReloadTemplates` is not set (traceapp/tmpl.go:48, 84: `tmpls` is set before the files are read) |
| C136 | RFC 3339 texts with a leap second, `t` or `z` make an event unreadable (reflect.go:96) |
| C138 | an integer that does not fit its field is cut to its width (reflect.go:137-151, 158-173); a text that cannot be read ends the reading of the event, without error (event.go:97) |
| C139 | UnmarshalEvents returns an event once for every annotation that names its schema (event.go:137-148, span.go:206-214); an index in the key of an annotation sets the length of a slice (reflect.go:298) |
| C140 | Annotations.String does not quote keys, so that a key with a line feed can imitate other annotations (span.go:199) |
| C141 | the timeline is sorted by the first recorded timespan of a root span, not by when it starts or ends (trace.html:485, 505) |
| C142 | Aggregate View with no trace selected shows all traces, and with all selected also those added since (traces.html:174, app.go:266) |
| C143 | the menu View Mode has no effect if the address has a `#` (aggregate.html:92-97) |
| C144 | `appdash demo` with addresses that have a host prints and uses URLs like `http://localhost127.0.0.1:8699` (example_app.go:60, 82) |
| C145 | a reader walks the store's own nodes without its lock (store.go:246-272): a span can be shown twice, and spans can be missing |
| C146 | the same, in `encoding/json`: a slice of children that becomes shorter during the export makes it panic (traceapp/app.go:183, store.go:237) |
| C147 | the dashboard's heading "Timeline: 0-24 hours ago" stands above the results of the time from 48 to 72 hours ago (dashboard.html:96, dashboard.go:63-72); a late answer replaces a newer one |
| C148 | labels of the timeline show escapes: a span "a&b" is labelled "a&amp;b", with two timespans "a&amp;amp;b" (trace.html:442 reads `innerHTML` and sets the text) |
| C150 | with no box ticked, "Export Selected" opens its menu with the text of an earlier export in it (traces.html:147-152 returns before the text is set) |
| C151 | the menu of a span that takes less than a millisecond has no heading (vis.go:127-133 leaves the label of its timespan empty, trace.html:347) |
| C152 | a trace that lasts longer than `MinEvictAge` is deleted while the program still runs, and the spans that end later are shown as the whole trace (store.go:417-422) |
| C154 | if two calls of the example `webapp-opentracing` fail, the error of the second is shown twice (examples/cmd/webapp-opentracing/main.go:120, C120) |
| C159 | the log that `example_opentracing_socket.py` makes on every parent span is never shown (python/appdash/recorder.py does not look at the logs of a span) |
| C162 | `deleteSubNoLock` leaves a span that is not a child of the root in the tree, without its annotations, and takes it out of the span map (store.go:307 looks only at the root; the comment says so) |
| C163 | each report of memory statistics is indented by two spaces more than the one before (memstats.go:77 is not undone at the end of `Log`) |
| C165 | with `Trace` set, the server logs the address of a pointer instead of the span of an annotation (collector.go:467 prints `p.Spanid.Span`, which is a pointer) |
| C95 | a span named like an HTML element becomes that element in tooltips and menus (trace.html:349, 385 use `html()`) |

## Restated properties

Where an English claim needed a hypothesis that the code really needs, the claim in `properties.jsonl` states it, and a
theorem beside the property shows that it is needed: C12–C14 (what counts as reported or delivered), C19 (cycles), C20
(temporary roots), C21 (span ID 0), C22, C26, C29 (empty values), C31, C34, C35 (age bounds), C39, C41 (clashing names), C42
(ordinary times), C45, C46, C48 (zero codes), C50, C51, C52, C53, C56 (invalid statuses), C73 (later keys).
C57 was strengthened from one call to any number of concurrent calls.

## Plan per property

"neg" marks a claim that reading the code shows to be false as stated: its negation is proved with a concrete
witness, and the strongest true restriction is proved as `..._partial`.

| id | modelled | proof |
|---|---|---|
| C01 | `%016x` and `ParseUint(s,16,64)` on bytes | positional-numeral round trip, by arithmetic on digits |
| C02 | same parser | induction on the string against the independent value function |
| C03 | `SpanID.String`, `ParseSpanID` with `strings.Split` | split/join lemma plus C01 |
| C04 | same | split characterisation |
| C05 | JSON scalars (string, number, null, other) after the JSON lexer | case analysis plus C01; the texts of scalars are modelled for C82 and C130 |
| C06 | `generateID` with an arbitrary block permutation; callers interleave under the mutex | induction over calls; counter arithmetic mod 2^128 |
| C07 | span ID constructors over an arbitrary supply of IDs | induction over derivation chains |
| C08 | proto2 encoder/decoder of `CollectPacket` at byte level | round trip by induction on fields, varint round trip |
| C09 | delimited reader/writer and the server loop over a byte stream | prefix decomposition by induction on packets |
| C10 | same, with packets over 1 MiB | neg (oversize); partial for packets within the limit |
| C11 | server loop on arbitrary bytes | neg (missing parent dereferences nil); partial: panic exactly in that case |
| C12 | `RemoteCollector` over a network with arbitrary outcomes | invariant over the trace of calls |
| C13-C17 | `ChunkedCollector` as a transition system of lock sections | invariants; C16, C17 neg in part |
| C18-C26 | `MemoryStore` on an explicit heap | heap invariant by induction over histories; abstraction to a history-based specification; C19, C20, C26 neg in degenerate cases |
| C27 | lock-protected operations split into arbitrary micro-steps | generic reduction theorem, instantiated for the store |
| C28 | heap model | neg with a witness; partial: unchanged if no later call touches that trace; shows the current subtree until the trace is deleted and is frozen then |
| C29-C30 | gob as structural copy of the pointer graph | C30 neg with a witness; partial for continuations on other traces |
| C31 | file-system steps with a crash/failure after any of them | invariant |
| C32-C33 | `LimitStore` with its ring buffer over the `MemoryStore` model | refinement to a FIFO; neg for trace ID 0 |
| C34-C35 | `RecentStore` with asynchronous deletes | invariants; neg for the concurrent races |
| C36 | stores as arbitrary response functions | induction on the list of stores |
| C37-C38 | `Recorder` as a state machine with an arbitrary collector | invariants over call sequences |
| C39-C41 | events as typed values, flatten/unflatten on sorted key-value lists | induction on types; neg for empty sequences and colliding field names |
| C42 | `findTraceTimes` | fold invariants; neg for zero start times |
| C43 | `FindSpan` on trees | structural induction |
| C44-C48 | headers, middleware, transport, redaction, response recorder | case analysis, induction; C47 and C48 neg |
| C49-C53 | profile, aggregation, timeline, upload | tree induction; C50, C51 neg; C52 via the store model |
| C54 | router patterns and URL building | hex segment lemmas; all paths by the number of their parts |
| C55-C56 | basic authentication; buffered handlers over the response writer of net/http | case analysis, induction over the calls of a handler |
| C57 | `RecordSpan` in any number of goroutines, interleaved at collector calls | invariants over reachable states |
| C58 | `MemoryStore.Traces` | neg |
| C59 | gob's recursion over the pointer graph | neg; exact condition by well-founded induction |
| C60-C61 | `RecentStore` with delayed deletes | neg; partial by invariants over schedules without overlap |
| C62-C63 | marshalling of all event types | neg; partial for conforming events |
| C64 | `TimespanEvent` for all times | neg; partial for ordinary times |
| C65-C67 | aggregation order, timeline | neg; exact partial statements |
| C68 | response recorder against the response writer of net/http | neg; partial |
| C69-C71 | upload of arbitrary JSON over the store model | neg; exact conditions |
| C72 | annotations of a recorded OpenTracing span | via C73 |
| C73 | decoding of structs of scalars from arbitrary annotations | induction over sorted fields |
| C74 | causal trees over the ID, store, chunked and remote models | composition of the abstraction theorems |
| C75, C76 | Python serialisation, socket with partial sends and errors per thread, Go server loop | bytes equal to Go's; invariant stream = whole packets + a part; C76 neg |
| C77 | Python span IDs and their text | hex digits parse back |
| C78 | Twisted factories with the shared class attribute, connections, flushes | neg; invariants over all operations |
| C79 | Python recorder over tags and baggage | neg; C80 |
| C80, C81 | Python events, Go's reflective decoder | scan of sorted annotations; C81 neg |
| C82 | JSON as text: printing with a layout, parsing with escapes, numbers and white space | induction over values; C52 |
| C83 | serveTrace from URL to page: query, base64url without Close, gzip framing, JSON stream, upload, page | cut lies in the gzip trailer; C82, C54, C52 |
| C84 | serveAggregate from query to aggregation | list induction; C26 |
| C85 | serveDashboardData from query to JSON text, rows and links; serveTraces' IDs | C82, C84; list induction; modular arithmetic |
| C86 | a list of exported traces as any JSON text, uploaded into another store | C82's grammar, C52, induction over the list |
| C87 | filterAnnotations, Important and the rows of the annotation tables | C23; induction over the event's type |
| C88 | Transport.RoundTrip, setCloneRequest and CancelRequest as a state machine over any number of goroutines | invariant by induction over the schedule |
| C89 | the same | negation by a witness; invariant |
| C90 | Middleware and responseInfoRecorder: header edits, writes, flushes on a response writer | induction over the handler's operations |
| C91 | the same | negations by witnesses; induction |
| C92 | redactHeaders on slices that may share arrays | invariant of the loop over the trailer |
| C93 | page, timeline and profile links with router, handler and store | C54, C18, C49, C51; negation by a witness |
| C94 | HTML of annotation tables, list of traces, script data; a tokenizer of HTML | scanning lemmas with arbitrary continuation; C86, C87; bytes of JSON texts by induction |
| C95 | what tooltips and menus hand to the browser as HTML | negation by a witness; text without special characters is read as it is |
| C96 | the recursive functions of the timeline's script on the items, with a bound on the depth | counting the items under an ID; equivalence of parent links and positions in well-placed trees; negation by witnesses |
| C97 | `appdash serve`: RecentStore, store file, restarts, as a transition system | simulation by a RecentStore over an empty store (C34, C35, C60); invariant of restored traces; negation by a witness |
| C98 | `Recorder` with any number of goroutines; a step is one access to a variable, one call of the collector, or one section under the lock | invariants by induction over executions: multisets of errors met, pending, reported and returned; a measure for termination |
| C99 | as C98 | negation by witnesses; for exclusive calls, an invariant relating the recorded events to the annotations held; ownership implies exclusion |
| C100 | `float64` arithmetic as rounding of rationals to 53 bits (ties to even), `FormatFloat`, `ParseFloat`, conversions to and from `int64`; events as in C73 | negation by a witness; error bounds of the three roundings for all durations below 2^52 ns, exactness for whole milliseconds |
| C101 | as C100, and rounding to 24 bits | negation by a witness; the shortest numeral is rounded back to the number (checked by construction, with the exact expansion as fallback), and rounding it to 24 bits agrees on values of 24 bits |
| C102 | reflect.go for all kinds of types (`Verif.Model.ReflectRich`): pointers, interfaces, defined types with a `String` method (an arbitrary function), nested maps and sequences; a panic is an explicit result | negation by a witness; exact characterisation of the panics by mutual induction over values; agreement with the smaller model of C39 |
| C103 | as C102, reading into a fresh value | negation by witnesses for each kind of field; reading fields in sorted order among other annotations, by induction over the sorted fields; nested structs by erasing the pointers, so that keys and paths are those of C39, and induction over the type |
| C104 | as C103, for arbitrary annotations; the registry of C41 | negation by witnesses; induction over the types without the dangerous kinds; the library's events are of such types; conversely, for every event with a dangerous field annotations are constructed that lead the reader past the fields before it |
| C105 | nothing new is modelled: the models of recorder (C29), chunked collector (C18), remote collector and server (C23), store (C01) and events (C41) are composed; `Verif.Spec.EndToEnd` says what a traced program is | one recorder makes one call; a span collected once passes a chunked collector unchanged (invariant over all interleavings); the tree is that of C74; the events are those of C41; repetitions by induction |
| C106 | trace.go `TreeString` (`Verif.Model.TreeString`), as the bytes written | negation by a general forgery; the text is split into lines, annotation lines have an equals sign and span lines do not, the depth of a span is the number of spaces; mutual induction over trees with what follows them |
| C107 | cmd/appdash/send_cmd.go `Execute` and sample_data.go (`Verif.Model.SampleData`), with arbitrary answers of the collector | negation with a collector that refuses everything; no error is recorded before `Finish`; a ChunkedCollector without `Collect` calls flushes nothing (invariant over all its steps); induction over the loops for errors of `MarshalEvent` |
| C108 | `randomSplit`, `sampleData` and `time.Time.Add` (calendar arithmetic) | induction over the loop of `randomSplit`; the calendar is inverted (`date_days`); the traces are traced programs in the sense of C105 |
| C109 | `SpanID.Format`, `fmt.Sprintf` for strings (`Verif.Model.Printf`) | induction over literal parts of the format; the text of an ID has neither star nor percent sign |
| C110 | `Trace.String`, `Span.String` with the printer of encoding/json (`Verif.Model.TraceString`) | the printed text is parsed back (round trip of C82) |
| C111 | the accept loop, any number of connections whose bytes arrive in parts, and a MemoryStore (`Verif.Model.CollectorServer`) | invariant over all steps: what is collected and unread is what a lone server makes of the bytes; a measure decreases with each step of a handler; then C105 |
| C112 | the accept loop | the state `returned` is not reachable |
| C113 | `urlOrDefault`, `net.SplitHostPort` and the check of `New` (`Verif.Model.BaseURL`) | addresses are split as written; the host of the URL has two bytes less than an IPv6 address needs |
| C114 | base URL, references of the pages, static files with `http.StripPrefix`, subrouters and proxies (`Verif.Model.BaseURL`) | inversion of the router: only `/traces/ID` is routed to a trace and only `/static/…` to files; then lengths and cancellation |
| C115 | middleware and transport (`Verif.Model.Http`) of any number of services, recorders, store | mutual induction over the tree of requests: calls are for the spans of the tree in order (C45); then C74 and C41 |
| C116 | annotation slices as references to arrays with length and capacity, shared by recorders, chunked collectors and stores (`Verif.Model.Slices`) | simulation by a program that copies: every array has at most one holder that may write to it; counterexample for late events |
| C117 | the same, with all stores of a `MultiStore` given the same slice | every array has a log, the longest of what its holders have written; between calls all holders of one span's array agree with it; counterexample for overlapping calls |
| C118 | `ChunkedCollector` with a clock (`Verif.Model.ChunkedTime`): timer, time-out, bounded durations of everything else | invariant: where each flush and the background goroutine can be at what time; a potential (delivered + dropped + held by old flushes + queued) never decreases; refinement of `Verif.Model.Chunked` |
| C119 | the OpenTracing recorder with any number of goroutines (`Verif.Model.OpenTracing`), the chunked collector, the store | a thread's calls are the only ones with its span's ID; composition with the causal tree theorem and C121 |
| C120 | the same, with `UnmarshalEvents` and the registry of the library's events | computation of the reader over name, logs, tags, baggage, times; counterexample with two logs |
| C121 | `ChunkedCollector` with overlapping flushes (`Verif.Model.Chunked`) | invariant: delivered, then held by the one flush, then queued is a sublist of accepted, for each span; counterexample with two flushes |
| C122 | C115 and C119 with `Verif.Model.Remote` (one collector for each process) and `Verif.Model.CollectorServer` (one server, any number of clients) | composition with C111; the recorders of the processes are merged into one; the packets of a span come on one connection, so their order is kept |
| C123 | the same collector and server | composition of C07 and C111 for one connection; counterexample with a broken connection |
| C124 | `RegisterEvent` and `UnmarshalEvents` with events that are pointers (`Verif.Model.EventRegister`) | induction over the registrations and over the schemas; C104 for the types |
| C125 | the decoder of `Verif.Model.Wire` on packets with unknown fields (`Verif.Spec.WireExtra`) | induction over nested groups, the field loop skips each unknown field |
| C126 | the decoder of `Verif.Model.Wire` and `handleConn`; the language of messages as inductive relations (`Verif.Spec.WireGrammar`) | parser and language agree: soundness by induction over the fuel, completeness by induction over the derivation |
| C127 | the middleware of `Verif.Model.Http` with a handler that panics | case analysis |
| C128 | opened files and directories of data_vfsdata.go, a `gzip.Reader` that delivers any portions (`Verif.Model.EmbeddedFile`) | invariant over the calls: the noted position is the decompressor's |
| C129 | the Go and Python clients (`Verif.Model.Remote`, `Verif.Model.Python`), the server with many connections (`Verif.Model.CollectorServer`), store | each client's streams consist of its packets (C75, C78, C122); the server's store gets all of them (C111), so it shows the causal tree (C74); induction over the events of a span |
| C130 | JSON as text (`Verif.Model.JsonText`) and the decoding of traces (`Verif.Model.Json`); a grammar of JSON (`Verif.Spec.JsonText`), with UTF-8 as Lean's own library encodes it, base64 (`Verif.Spec.Base64`), and a declarative reading of values (`Verif.Spec.UploadJson`) | both directions by induction: over derivations of the grammar, and over the reader's steps; decoding of members as "the last one counts" |
| C131 | the store and gob as in C29 and C30; the shown spans as an inductive predicate on the two histories (`Verif.Spec.Restart`) | after `ReadFrom` the trace map has one copy of every node and the span map another: an invariant that gives, for each node, its place from the history (`Verif.Proofs.RestartPlace`, `RestartCollect`, `RestartTree`), kept by every call; then unfolding of the tree |
| C132 | the application from request to response (`Verif.Model.WebApp`): router, handlers, template cache and buffered writer put together; the answers (`Verif.Spec.WebApp`) | by cases over routes and results: every handler ends in one of the pages of an inductive predicate, and the buffered writer turns each into its answer |
| C133 | the same | `trace_request_answer` for a store that does not have the trace; counterexample by evaluation |
| C134 | the same, with histories of requests and changing template files | the cached templates are, by induction over the history, none or those of the files; counterexample by evaluation |
| C135 | times as text as in C38 (`Verif.Model.TimeFmt`); the grammar of RFC 3339 with the meaning of numerals (`Verif.Spec.Rfc3339`) | each reader accepts exactly the numerals, fractions and zones of the specification; length of the fraction by divisibility |
| C136 | the same | counterexamples by evaluation; C135 for the rest |
| C137 | the models of C129 and C132 together, on one store | C129 gives the stored tree, C132 the answer; the page exists if all events are read, by induction on the tree |
| C138 | reading of scalars from any text: strconv with signs, points, exponents; Spec/Numerals says what texts denote, over the rationals | rounding is to the nearest by cases on the binade; texts by induction; the loop over the fields by induction on the sorted list |
| C139 | the size of annotations and of the events read from them (Spec/EventSize) | a bound for each kind of field, by induction on the type and on the pairs that are left; a family of spans for the square |
| C140 | `Annotations.String` with `%q` of strconv (Model/AnnotationsText), Go's interpreted string literals (Spec/AnnotationsText) | the quoted text is a literal of the value, by induction; literals are unambiguous and have quotes only after backslashes; a key that imitates annotations as the counterexample |
| C141 | `lastSort`, the four comparison functions, clicks (Model/TimelineSort); what ECMAScript says of `sort`, numbers and order of the buttons (Spec/TimelineSort) | the comparison functions are consistent on items that have timespans, as all items of `d3timeline` have; induction over clicks; the full statement is refuted by a root with a query recorded first |
| C142 | boxes, Toggle Selection, the values of `data-json-trace`, the link of Aggregate View (Model/TracesScript) | ticks in closed form by induction over clicks; the texts are read back by C110, the request by C84; refuted by an empty selection |
| C143 | the regular expression of `updateQueryStringParameter` on addresses (Model/ViewModeScript), settings of queries (Spec/Query) | the function on addresses agrees with one on lists of settings, induction on these; induction over choices; refuted by an address with `#` |
| C144 | the URLs and the handler of `demo` (Model/Demo), on the middleware, the transport and the store | instance of C115: the delivered annotations, key by key, give the names; the tree is computed from the handler's calls; the link through the router; refuted by an address with a host |
| C145 | a walk over the store's nodes, field by field, with calls in between (Model/Reading), on the heap model of the store | the walk refines one over abstract traces; induction over the walk with the invariant of the store; frame argument for other traces; refuted by three schedules; in the middle of calls (Model/ReadingSteps) an invariant of every state that a call makes |
| C146 | the walk of encoding/json, which reads a slice's length once and each element from the slice as it is then (Model/Reading) | while the slices of children stay the same the export reads as C145; refuted by a schedule in which a slice becomes shorter |
| C147 | the positions of the slider, the heading, the query, the timer and the requests of the dashboard's page (Model/DashboardScript); the server's range of C85 | the query is read back setting by setting; invariant over the events: the last request is for the slider's positions; refuted by the positions 0 and 24 and by answers in the other order |
| C148 | the loop that sets the labels anew, with `innerHTML` (Model/TimelineLabel) | induction over the timespans of an item; lengths; refuted by the name "a&b" |
| C149 | the handler of the view buttons (Model/TimelineLabel) | cases of the last click |
| C150 | the menus for imports and exports of the list of traces, with their texts and the posted bodies (Model/TracesMenu) | invariants over what a user does; white space of ECMAScript is a prefix code, and no JSON text begins with one beyond JSON's own; composed with C86; refuted by exporting again after clearing the only box |
| C151 | the timeline with its sorting, menus and filters (Model/TimelinePage, on C96 and C141) | invariant over all acts: the items up to order and flags; what is below a span does not depend on the order (a relation on items that permutations keep); refuted by a span of less than a millisecond |
| C152 | a program's trace in a `RecentStore` and in `appdash serve` (Model/Recent, Model/Serve, with C74, C105, C97 and C137) | induction over the history: the time of first sight is that of the first call, so a young trace is never among those evicted; refuted by a trace that lasts longer than `MinEvictAge` |
| C153 | the handlers of the example `webapp` on the middleware, the transport and a `RecentStore` (Model/ExampleWebapp) | the steps of the handlers determine the calls; then C115 for the tree, C152 for the store and C137 for the page |
| C154 | the spans that the handlers of the example `webapp-opentracing` finish (Model/ExampleOpenTracing); basictracer by its contract | folds over calls and header fields; then C119 and C120 for the recorder and C152 for the store |
| C155 | the executions of C31 | invariant: the process, the store written last and the store in the file show the trace alike; C29 at each restart |
| C156 | the recorders of C105, the services of C115, the executions of C155 | the trace is absent before the first call, so the process shows what a new store shows; C155 carries that to later processes; equal annotations give equal events |
| C157 | `Verif/Model/PythonExamples.lean` on top of the Python client and the server of C129 | the calls are a chain of spans; C129 for one client; `python_events_read` per span; Twisted flushes by induction on their number |
| C158 | the recorder of C79, the server of C129 | the packets of a span are grouped by its ID; name and times are read among tags with other keys |
| C159 | `Verif/Model/PythonExamples.lean` | C158 for seven traces of two spans; the annotations are known exactly, and none is the log |
| C160 | the executions of C31 with the server of C129 and the web application (`Verif/Model/WebApp.lean`) | C155 for the calls of the collector server; the tree is that of C129, and a store that has the tree gives its page |
| C161 | `Verif/Model/Remote.lean`, `Verif/Model/Wire.lean` | the invariant of C12 with what the servers have been given at each statement of a call; a cut packet yields nothing, a whole one itself |
| C162 | `Verif/Model/DeleteSub.lean` | the heap still represents the trace, with one list of children filtered; the loop over the shared array by its three phases; a change at the root is not seen below it |
| C163 | `Verif/Model/MemStats.lean` | induction over the rows for a width, over the columns for the widths, over the cells for a line; the place of a column is the sum of the widths before it |
| C164 | `Verif/Model/Locks.lean` | every program of a call locks in descending order of the mutexes and unlocks in reverse order; invariant over all interleavings; strong induction over the mutex that is waited for; the steps left decrease |
| C165 | `Verif/Model/CollectorLog.lean` | each part of a message ends at the first byte that it cannot contain; quoted values as in C140; induction over annotations and packets |

## Axioms

As printed by `#print axioms` for every theorem of `MANIFEST.json` (all in namespace `Appdash`).

* none: `tree_text_key_confused`, `restart_hides`, `unsaved_lost`, `days_epoch`, `page_served`, `invalid_status_mixes`, `status_received_false`, `late_status_recorded`, `Py.python_child`, `Py.python_baggage_fails`, `response_without_span`

* propext: `span_id_text_shape`, `parse_span_id_rejects`, `id_json_other`, `pointer_to_struct_panics`, `interface_panics`, `pointer_to_time_is_lost`, `pointer_after_bad_field_is_nil`, `stringer_event_is_lost`, `stringer_number_is_lost`, `stringer_number_panics`, `reading_can_panic`, `negative_index_panics`, `large_index_panics`, `format_text`, `format_unused_argument`, `server_panics`, `closed_listener_log_partial`, `given_url_used`, `address_without_port`, `Chunked.timed_refines`, `Chunked.waits_for_running_flush`, `Chunked.not_passed_after_min_interval`, `remote_serialised`, `every_request_recorded_partial`, `AnnotationsText.text_ambiguous`, `AnnotationsText.nil_value_shown`, `AnnotationsText.same_text`, `ViewModeScript.choice_without_effect`, `table_falls_behind`, `heading_follows_slider`, `labels_show_escapes`, `TracesMenu.one_menu`, `TracesMenu.menu_shown`, `Chunked.stop_not_final`, `Chunked.sends_after_stop`, `Chunked.stop_panics_unstarted`, `Chunked.stop_panics_twice`, `packet_arrives_twice`, `trace_hides_span`, `debug_messages`, `Chunked.background_error_lost`, `store_mutual_exclusion`, `limit_max_false`, `limit_zero_partial`, `recorder_errors_call`, `marshal_custom`, `register_panics`, `timespan_unreadable`, `library_untimed`, `serves_span`, `round_trips_total`, `spellings_collide`, `malformed_panics`, `recorded_status`, `recorder_transparent`, `names_of_spans`, `profile_order`, `auth_configured`, `auth_not_configured`, `empty_slice_loses_next`, `empty_slice_gains_element`, `empty_struct_loses_next`, `clashing_names_lose`, `defined_type_panics`, `two_messages`, `zero_start_forgotten`, `far_future_is_earlier`, `aggregate_order_matters`, `every_timed_span_shown_false`, `untimed_root_hides`, `status_received_partial`, `invalid_key_changed`, `later_key_overwrites`, `Py.returned_not_received`, `Py.returned_not_received_threads`, `Py.received_not_collected`, `Py.twisted_shares`, `Py.twisted_repeats`, `Py.python_unsampled_partial`, `exportText_sample`, `url_parts`, `sampleFlate_sound`, `aggregate_all`, `view_modes`, `row_link_empty`, `dashboard_no_range`, `dashboard_bad_range`, `dashboard_range_overflow`, `private_field_hidden`, `reuse_confuses`, `hijack_hidden`, `shared_header_overwritten`, `image_read`, `strict_filter`, `shared_annotations_sent`, `shared_finish_twice`, `shared_event_lost`

* propext, Quot.sound: `parse_id_exact`, `parse_id_rejects`, `parse_span_id_exact`, `id_json_string`, `id_json_int`, `recording_can_panic`, `nil_pointer_panics`, `recording_panics_iff`, `recording_partial`, `models_agree_recording`, `recorded_events_not_read`, `steady_reading_partial`, `tree_text_not_faithful`, `tree_text_forged`, `send_reports_unencodable_partial`, `random_split_segments`, `server_survives_partial`, `default_url_misleads`, `default_url_leads_iff_partial`, `static_works_iff_partial`, `import_works_iff_partial`, `Slices.late_event_replaces`, `Slices.shared_annotations_change`, `Slices.shown_after_finish`, `Slices.overlapping_calls_lose`, `Chunked.unbounded_without_timeout`, `remote_whole_frames`, `remote_nil_means_written`, `tags_taken_for_events`, `values_registered_agree`, `said_is_in_message`, `every_request_recorded_false`, `embedded_files_broken`, `embedded_files_work_partial`, `embedded_file_read_all`, `Chunked.queue_bounded`, `value_base64`, `base64_unambiguous`, `app_read_only`, `responses_forget_partial`, `readable_page`, `Chunked.annotation_in_one_place`, `Chunked.delivered_at_most_once`, `Chunked.collect_drop_reported`, `TimelineSort.items_timed`, `TimelineSort.queryFirst_sorted`, `demo_url_leads_iff_partial`, `demo_urls_mislead`, `moments_end`, `reading_during`, `plain_labels_partial`, `labels_are_short`, `one_view_displayed`, `Chunked.stopped_collect_fails_partial`, `Chunked.stopped_collect_keeps_queue_partial`, `Chunked.stopped_sends_only_accepted_partial`, `Chunked.stopped_drained_silent_partial`, `deleted_sub_stays`, `MemStats.table_printed`, `MemStats.columns_aligned`, `MemStats.reports_creep`, `MemStats.reports_not_alike`, `MemStats.report_partial`, `Locks.unlocks_own`, `Locks.waits_for_others`, `Locks.cycle_deadlocks`, `trace_names_address`, `Chunked.background_errors_not_all_reported`, `Chunked.collect_reports_latest_partial`, `Chunked.background_error_reported_partial`, `Chunked.errors_reported_once_partial`, `Chunked.stored_error_from_flush_partial`, `Chunked.collect_fails_only_if_partial`, `cyclic_spans_lost`, `temporary_root_above_its_parent`, `span_zero_displaces_root`, `store_serialisable`, `store_calls_complete`, `empty_value_becomes_nil`, `restart_transparent_false`, `restart_loses_updates`, `persist_crash_safe`, `write_sees_store`, `limit_fifo_false`, `multi_collect`, `multi_trace`, `multi_traces`, `multi_traces_error`, `recorder_calls`, `recorder_once`, `recorder_unfinished`, `recorder_errors`, `recorder_logged`, `alphanumeric_names_apart`, `schema_error_iff`, `schema_error_untouched`, `marshalled_has_schema`, `register_found`, `timespan_bounds_any`, `timespan_read`, `library_event_times`, `days_next_day`, `instant_clock`, `span_header`, `parent_header`, `no_header`, `client_annotations`, `server_annotations`, `serves_total`, `recorded_names`, `always_passes_on_false`, `always_passes_on_partial`, `recorded_length`, `profile_exact`, `profile_readable`, `profile_unreadable`, `aggregate_exact`, `aggregate_unreadable`, `timeline_exact`, `timeline_ok`, `timeline_complete`, `timeline_durations`, `timeline_milliseconds`, `timeline_unreadable`, `page_paths`, `request_methods`, `auth_base64`, `failed_page`, `logged_once`, `logged_verbose`, `every_event_survives_false`, `every_event_returned_false`, `aggregate_order_free_false`, `every_timed_span_shown_partial`, `own_durations_false`, `two_times_one_duration`, `two_roots_swapped`, `displaced_root_not_reproduced`, `foreign_span_alters`, `failed_upload_stores_nothing_false`, `half_upload_stores`, `Py.twisted_loses`, `Py.twisted_known_partial`, `Py.twisted_kept_partial`, `Py.twisted_one_partial`, `Py.python_tag_fails`, `Py.python_response_overwrites_partial`, `Py.python_http_carries_partial`, `permalink_cut`, `aggregate_bad_id`, `aggregate_twice`, `middleware_transparent`, `response_lacks_span`, `escaped_read`, `names_are_text_false`, `names_are_text_partial`, `menu_exact_false`, `menu_endless`, `orphan_not_hidden`, `strict_filter_iff`, `shared_calls_return`, `shared_events_lost_false`

* propext, Classical.choice, Quot.sound: `id_text_roundtrip`, `id_text_injective`, `span_id_text_roundtrip`, `span_id_text_injective`, `id_json_roundtrip`, `generated_ids_are_keystream`, `counter_never_repeats`, `id_pairs_never_repeat`, `generated_pairs_distinct`, `child_of_its_parent`, `lineage_shares_trace`, `is_root_iff`, `spans_distinct`, `packet_roundtrip`, `packet_arrives`, `packet_injective`, `truncated_stream`, `truncated_stream_rejecting`, `oversize_lost`, `accepted_arrive_partial`, `oversize_kills_connection`, `durations_do_not_survive`, `longest_duration_turns_negative`, `whole_millisecond_durations_survive_partial`, `event_numbers_close_partial`, `floats_do_not_survive`, `large_float_loses_fields`, `narrow_floats_survive_partial`, `pointers_survive_partial`, `nested_pointers_survive_partial`, `models_agree_reading`, `steady_registry_partial`, `library_reading_partial`, `annotations_panic_iff_partial`, `recorded_program_shown`, `recorded_program_shown_remotely`, `recorded_program_shown_chunked`, `recorded_program_shown_end_to_end`, `recorded_program_repeated`, `recorded_program_retried`, `tree_text_iff_partial`, `tree_text_determines_partial`, `send_failures_not_reported`, `send_result_partial`, `send_attempts_partial`, `sample_trace_shown`, `sample_data_shown`, `tagged_query`, `tagged_query_id`, `documented_format_drops_query`, `server_survives_own_clients_partial`, `trace_string_read`, `trace_string_injective`, `span_string_read`, `span_string_injective`, `server_calls_stored`, `server_client_order`, `server_settled_client`, `server_settled_complete`, `server_settles`, `server_can_serve`, `server_crashes_only`, `server_keeps_accepting`, `recorded_program_shown_by_server`, `closing_does_not_stop`, `address_accepted_iff`, `not_served_under_path`, `links_work_iff_partial`, `pages_work_iff_partial`, `root_works_partial`, `services_shown`, `services_named`, `Slices.collected_as_passed_partial`, `Slices.own_slices_not_shown_partial`, `Slices.multi_collected_as_passed_partial`, `Slices.overlapping_multi_calls`, `Chunked.flush_returns_in_time`, `Chunked.automatic_flushes_apart`, `Chunked.settled_in_time_partial`, `Chunked.default_settled_partial`, `Chunked.delivered_in_time_partial`, `Chunked.time_goes_on`, `opentracing_program_shown`, `opentracing_program_shown_chunked`, `unsampled_trace_absent`, `shown_span`, `server_never_mixes`, `remote_attempts`, `logs_not_shown`, `events_shown_partial`, `one_log_shown_partial`, `Chunked.order_not_kept`, `Chunked.order_kept_partial`, `Chunked.unflushed_order_partial`, `Chunked.all_in_order_partial`, `services_shown_by_server`, `opentracing_shown_by_server`, `remote_order_changes`, `remote_order_partial`, `registered_pointer_panics`, `reading_panics_iff_partial`, `newer_packet_read`, `newer_client_served`, `fields_written`, `newer_client_says`, `server_takes_what_is_said`, `server_takes_all_that_is_said`, `says_unique`, `clients_say`, `readdir_prefix`, `readdir_exact`, `mixed_program_shown`, `mixed_events_shown`, `python_events_read`, `Chunked.overfull_drops`, `json_read_iff`, `json_unambiguous`, `traces_unambiguous`, `upload_language`, `permalink_language`, `first_value_read`, `first_value_only`, `json_string_read`, `json_string_unchanged`, `restart_shown`, `restart_harmless`, `query_settings`, `app_answers`, `trace_request_answer`, `list_request_answer`, `other_requests_answer`, `upload_request_answer`, `upload_then_shown`, `bad_files_answer`, `server_auth`, `missing_trace_not_found_false`, `missing_trace_partial`, `responses_forget_false`, `stale_templates`, `time_read_iff`, `rfc3339_read`, `rfc3339_unambiguous`, `format_rfc3339`, `format_shortest`, `date_times_not_read`, `date_times_read_partial`, `program_on_page`, `not_read_as_written`, `annotated_fields_read_partial`, `readsAs_unique`, `denoted_values_read_partial`, `written_float_denotes`, `not_proportional_reading`, `repeatedMessage_read`, `slice_of_any_length`, `event_size_partial`, `events_size_partial`, `proportional_reading_partial`, `Chunked.flush_drop_reported`, `AnnotationsText.annotations_shown`, `AnnotationsText.literal_determines`, `AnnotationsText.plain_value_shown`, `AnnotationsText.text_determines_partial`, `TimelineSort.clicks_sort`, `TimelineSort.clicks_draw`, `TimelineSort.sorts_by_start_false`, `TimelineSort.sorts_by_time_partial`, `TracesScript.aggregate_link`, `TracesScript.export_selected`, `TracesScript.export_selected_form`, `TracesScript.aggregates_selected_partial`, `TracesScript.aggregates_everything_partial`, `TracesScript.aggregates_all_partial`, `TracesScript.none_selected`, `TracesScript.new_trace_aggregated`, `TracesScript.aggregates_selected_false`, `ViewModeScript.mode_chosen_partial`, `ViewModeScript.last_choice_counts`, `ViewModeScript.selected_in_mode`, `ViewModeScript.mode_chosen_false`, `ViewModeScript.selection_plain`, `demo_link_leads`, `demo_trace_shown`, `reading_not_one_moment`, `reading_repeats`, `reading_loses`, `reading_undisturbed_partial`, `reading_annotations_partial`, `reading_collected_partial`, `reading_complete_partial`, `reading_may_not_end`, `reading_ends_partial`, `reading_during_collected_partial`, `reading_during_undisturbed_partial`, `reading_during_complete_partial`, `export_can_panic`, `export_undisturbed_partial`, `export_annotations_partial`, `heading_and_range_partial`, `heading_wrong`, `heading_right_iff_partial`, `table_follows_slider_partial`, `dashboard_page_partial`, `escaped_labels_differ`, `Chunked.flush_groups`, `Chunked.flush_errors`, `TracesMenu.export_shows_ticked_partial`, `TracesMenu.export_nothing_partial`, `TracesMenu.export_shows_old`, `TracesMenu.import_posts`, `TracesMenu.export_imported`, `TimelineMenu.page_keeps_items_partial`, `TimelineMenu.menu_acts_on_clicked_partial`, `TimelineMenu.heading_names_span_partial`, `TimelineMenu.click_leads_to_span_partial`, `TimelineMenu.part_ordinary`, `TimelineMenu.heading_names_span_false`, `RecentTrace.young_whole_partial`, `RecentTrace.whole_or_gone_partial`, `RecentTrace.young_events_partial`, `RecentTrace.serve_young_partial`, `RecentTrace.whole_or_gone_false`, `webapp_trace_shown`, `webapp_link_leads`, `webapp_visit_page`, `ExampleOT.visit_shown`, `ExampleOT.home_shown`, `ExampleOT.endpoint_shown`, `ExampleOT.home_events_partial`, `ExampleOT.one_error_shown_partial`, `ExampleOT.errors_not_shown`, `ExampleOT.home_link`, `snapshot_survives`, `snapshot_survives_start`, `program_survives_crashes`, `services_survive_crashes`, `socket_example_shown`, `twisted_example_shown`, `python_tracer_shown`, `tracer_example_partial`, `tracer_example_no_logs`, `server_trace_survives`, `mixed_survives_crashes`, `page_survives_crashes`, `packets_arrive_in_order`, `packets_arrive_at_most_twice`, `delete_sub_exact_partial`, `delete_child_partial`, `delete_sub_unknown`, `MemStats.size_printed`, `MemStats.table_panics_iff`, `Locks.no_deadlock`, `Locks.calls_return`, `trace_determines_partial`, `sent_logged`, `collect_never_panics`, `trace_finite_tree`, `no_span_lost`, `spans_present_iff`, `span_under_declared_parent`, `real_root_is_root`, `root_is_collected`, `tree_independent_of_history`, `tree_independent_of_order`, `annotations_complete`, `traces_isolated`, `trace_depends_on_live`, `delete_removes`, `delete_starts_afresh`, `traces_lists_all`, `snapshot_not_stable`, `snapshot_stable_partial`, `pointer_shows_current_partial`, `pointer_shows_all_partial`, `pointer_frozen_partial`, `persist_round_trip`, `persist_round_trip_exact`, `persist_count`, `restart_partial`, `persist_recovers`, `limit_max_plus_one_partial`, `limit_max_partial`, `limit_fifo_partial`, `limit_held_partial`, `recent_evicts_old`, `recent_underlying`, `recent_bounds_age`, `recent_tracks`, `event_roundtrip`, `event_roundtrip_among`, `library_event_roundtrip`, `marshal_marker`, `events_roundtrip`, `library_events_roundtrip`, `timespan_bounds`, `days_next_month`, `days_next_year`, `find_span_exact`, `set_then_get`, `round_trip_spans`, `call_connects`, `recorded_readable`, `round_trip_readable`, `serves_readable`, `delivered_self`, `redacted_hidden`, `others_recorded`, `redacted_irrelevant`, `listed_redacted`, `canonical_names`, `client_redacted_irrelevant`, `profile_recursive`, `profile_recorded`, `aggregate_bounds`, `upload_reproduces`, `permalink_reproduces`, `single_root_true`, `upload_subtree_reproduces`, `upload_keeps_existing`, `upload_first_wins`, `urls_routed`, `visit_trace`, `visit_span`, `urls_distinct`, `auth_exact`, `auth_distinguishes`, `successful_page`, `unsampled_not_recorded`, `sampled_recorded`, `recorded_prefix`, `calls_owned`, `traces_ignores_ids`, `traces_contains_requested_partial`, `write_returns_false`, `write_returns_iff_partial`, `write_returns_acyclic_partial`, `recent_keeps_new_false`, `recent_exact_partial`, `recent_found_partial`, `recent_forgets_nothing_false`, `every_event_survives_partial`, `every_event_returned_partial`, `timespan_always_bounds_false`, `timespan_always_bounds_partial`, `aggregate_order_free_partial`, `own_durations_partial`, `upload_always_reproduces_false`, `upload_reproduces_iff_partial`, `upload_never_alters_false`, `upload_alters_only_named_partial`, `failed_upload_partial`, `recorded_name`, `recorded_times`, `recorded_tags`, `flat_event_survives`, `library_flat_event_survives`, `causal_tree_reconstructed`, `causal_tree_through_chunks`, `causal_tree_end_to_end`, `causal_shape_with_retries`, `Py.python_bytes`, `Py.python_packets_received`, `Py.python_one_thread`, `Py.python_whole_sends`, `Py.received_before_partial`, `Py.python_span_id_text`, `Py.python_recorded_partial`, `Py.python_name_read`, `Py.python_msg_read`, `Py.python_log_read`, `Py.python_timespan_read`, `Py.python_sql_read`, `Py.python_server_event_not_read`, `Py.python_client_event_not_read`, `Py.python_server_event_partial`, `Py.python_client_event_partial`, `json_text_roundtrip`, `json_string_roundtrip`, `json_grammar_read`, `exportText_isExport`, `parse_isExport`, `upload_text_reproduces`, `page_text_reproduces`, `upload_subtree_text_reproduces`, `upload_any_body`, `export_shows`, `export_form`, `permalink_shows_same`, `span_page_true_root`, `permalink_keeps_existing`, `whole_link_same`, `visit_changes_only_link`, `aggregate_selection`, `selection_texts`, `show_ids`, `dashboard_answers`, `range_end_read`, `row_links_to`, `row_link`, `dashboard_rows`, `dashboard_range`, `dashboard_shows`, `upload_selection`, `exports_text`, `exports_form`, `page_shows_annotations`, `short_table`, `event_shown`, `library_events_shown`, `client_status_shown`, `server_status_shown`, `sql_shown`, `cancel_reaches`, `cancel_only_running`, `cancel_idle`, `no_request_leak`, `copies_distinct`, `cancel_after_return_lost`, `cancel_before_return_partial`, `cancel_after_return_ignored`, `middleware_adds_header`, `span_in_empty_response_partial`, `recording_leaves_headers`, `second_root_link_lost`, `links_lead_partial`, `root_links_lead_to_trace`, `timeline_links_partial`, `profile_links_partial`, `page_profile_link_partial`, `table_read`, `short_read`, `markup_fixed`, `list_texts`, `list_upload`, `script_data`, `menu_ends_iff`, `menu_follows_links`, `menu_exact_partial`, `filter_exact_partial`, `fuzzy_filter_partial`, `colon_filter_fuzzy`, `delete_after_false`, `restored_never_deleted`, `restart_restores`, `serve_as_recent_partial`, `serve_deletes_old_partial`, `delete_after_partial`, `shared_errors`, `shared_errors_any_time`, `shared_errors_logged`, `shared_errors_collected`, `shared_events_false`, `shared_exclusive_partial`, `shared_unfinished_partial`, `shared_owner_partial`
