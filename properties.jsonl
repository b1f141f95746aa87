{"id": "C01", "title": "ID text round-trip", "statement": "For every 64-bit ID, ID.String() is exactly 16 lowercase hexadecimal digits and ParseID of that text returns the same ID without error; consequently two different IDs never have the same text.", "quantifier": "every 64-bit ID", "why_tests_cant": "2^64 IDs; a test samples a handful, and a padding or case bug shows only on particular digit patterns.", "anchors": ["id.go:ID.String", "id.go:ParseID"]}
{"id": "C02", "title": "ParseID accepts exactly 64-bit hexadecimal numerals", "statement": "ParseID(s) succeeds if and only if s is a non-empty string of hexadecimal digits (either case, any number of leading zeros) whose value is below 2^64, and then returns that value; every other byte string is rejected with an error.", "quantifier": "every byte string s", "why_tests_cant": "The domain is all byte strings; the overflow boundary and odd bytes cannot be enumerated.", "anchors": ["id.go:ParseID"]}
{"id": "C03", "title": "SpanID text round-trip", "statement": "For every SpanID, ParseSpanID(id.String()) returns exactly id; the parent component is present in the text if and only if the span is not a root; different SpanIDs have different texts.", "quantifier": "every (trace, span, parent) triple of 64-bit IDs", "why_tests_cant": "2^192 triples; the elided-parent case interacts with parsing.", "anchors": ["span.go:SpanID.String", "span.go:ParseSpanID", "span.go:SpanIDDelimiter"]}
{"id": "C04", "title": "ParseSpanID accepts exactly two or three slash-separated IDs", "statement": "ParseSpanID(s) succeeds if and only if s is two or three valid ID numerals joined by '/', in trace/span/parent order (a missing parent reads as 0); in every other case it returns ErrBadSpanID and no value.", "quantifier": "every byte string s", "why_tests_cant": "The set of malformed inputs is infinite.", "anchors": ["span.go:ParseSpanID", "span.go:ErrBadSpanID"]}
{"id": "C05", "title": "ID JSON round-trip and dual decoding", "statement": "Decoding the JSON encoding of any ID returns that ID; a JSON string is read as hexadecimal and never as decimal, a JSON integer as that number, null as zero, and every other JSON value (including an invalid hex string or an out-of-range integer) is rejected.", "quantifier": "every ID and every JSON scalar", "why_tests_cant": "Strings of decimal digits are valid in both readings; only an exhaustive argument shows which one is used for every value.", "anchors": ["id.go:ID.MarshalJSON", "id.go:ID.UnmarshalJSON", "id.go:parseJSONString", "id.go:parseJSONInt"]}
{"id": "C06", "title": "ID generation never reuses key stream", "statement": "Whatever the number of goroutines and their interleaving, the i-th ID handed out by the process is the i-th 64-bit half of the block-cipher key stream starting at the random initial counter; the 128-bit counter never repeats within 2^128 blocks, so no two calls ever return the same 64-bit half of the same block, and two different blocks differ in at least one half.", "quantifier": "every initial key and counter, every number of calls, every interleaving of callers", "why_tests_cant": "The counter carry chain and wrap-around need up to 2^128 steps to exercise.", "anchors": ["id.go:generateID", "id.go:init"]}
{"id": "C07", "title": "Causal lineage of generated span IDs", "statement": "Every SpanID derived from a root by any chain of NewSpanID/Recorder.Child calls has the root's trace ID, has as parent the span ID it was derived from, and only the root itself reports IsRoot unless a generated ID happens to be zero.", "quantifier": "every chain of child derivations, every value of the generated IDs", "why_tests_cant": "Chains are unbounded and the random IDs are arbitrary 64-bit values.", "anchors": ["span.go:NewRootSpanID", "span.go:NewSpanID", "span.go:SpanID.IsRoot", "recorder.go:Recorder.Child"]}
{"id": "C08", "title": "Collect packet survives the wire", "statement": "For every span ID and every list of annotations, the packet a RemoteCollector sends, if it is within the server's limit of 1 MiB, is decoded by the collector server to exactly the same span ID and the same annotations: same order, duplicates kept, arbitrary bytes, and absent values kept distinct from empty ones.", "quantifier": "every SpanID and annotation list (any keys, values, lengths)", "why_tests_cant": "The values are arbitrary byte strings of arbitrary length (varint length boundaries, field tags inside payloads).", "anchors": ["collector.go:newCollectPacket", "span.go:SpanID.wire", "span.go:Annotations.wire", "span.go:spanIDFromWire", "span.go:annotationsFromWire", "internal/wire/collector.proto"]}
{"id": "C09", "title": "A truncated connection never yields a wrong or reordered packet", "statement": "If a client sends packets p1..pn (each within the message size limit) on a connection and the stream is cut after any number of bytes, the server's collector receives exactly those packets whose bytes arrived completely, in order, and nothing else.", "quantifier": "every packet sequence, every cut point", "why_tests_cant": "Every crash point inside every frame of every stream has to be considered.", "anchors": ["collector.go:CollectorServer.handleConn", "collector.go:maxMessageSize", "collector.go:RemoteCollector.collect"]}
{"id": "C10", "title": "Every accepted Collect reaches the server", "statement": "If RemoteCollector.Collect returns nil and the connection then delivers all bytes, the server's collector receives that packet.", "quantifier": "every packet (of any size) and every sequence of packets", "why_tests_cant": "Depends on packet size crossing the server's 1 MiB limit at any position in a stream.", "anchors": ["collector.go:RemoteCollector.Collect", "collector.go:maxMessageSize", "collector.go:CollectorServer.handleConn"]}
{"id": "C11", "title": "The collector server survives every client", "statement": "No byte stream a client sends can make the collector server process panic: each connection ends either cleanly at end of stream or with an error on that connection only.", "quantifier": "every byte stream", "why_tests_cant": "Arbitrary hostile or foreign-language client input; optional fields may be missing.", "anchors": ["collector.go:CollectorServer.handleConn", "span.go:spanIDFromWire", "span.go:annotationsFromWire", "internal/wire/collector.proto:CollectPacket"]}
{"id": "C12", "title": "Remote sends are whole frames, retried at most once", "statement": "Under every pattern of dial and write failures, each Collect makes at most one new connection and at most two write attempts, returns nil only if its whole frame was written to one connection, and (as a connection on which a write has failed takes no further bytes) every connection carries a sequence of complete frames followed by at most one incomplete frame, so the server never decodes a mixture of two packets.", "quantifier": "every failure pattern of the network, every sequence of Collect/Close calls, every interleaving of callers", "why_tests_cant": "Failure schedules are unbounded; the interesting ones fail part-way through a frame.", "anchors": ["collector.go:RemoteCollector.collectAndRetry", "collector.go:RemoteCollector.connect", "collector.go:RemoteCollector.collect", "collector.go:RemoteCollector.Close"]}
{"id": "C13", "title": "ChunkedCollector queue never exceeds MaxQueueSize", "statement": "With a non-zero MaxQueueSize, in every reachable state the data waiting in the queue (keys, values and span IDs) amounts to at most MaxQueueSize bytes, and a Collect that would exceed it empties the queue and returns ErrQueueDropped (as long as one collection plus MaxQueueSize stays below 2^64 bytes).", "quantifier": "every sequence of Collect/Flush/Stop calls and background flushes, every MaxQueueSize", "why_tests_cant": "Unbounded call histories with arbitrary sizes, including the exact boundary.", "anchors": ["collector.go:ChunkedCollector.Collect", "collector.go:ChunkedCollector.Flush", "collector.go:ErrQueueDropped"]}
{"id": "C14", "title": "ChunkedCollector delivers each annotation at most once and loses none silently", "statement": "In every interleaving of callers and flushes, every annotation accepted by Collect is, at every moment, in exactly one place: still queued, held by one running flush, delivered once to the underlying collector, or dropped; and every drop is reported: the Collect that drops returns ErrQueueDropped, and the Flush that gives up returns ErrQueueDropped or, if it met several errors, one error listing them all.", "quantifier": "every interleaving of any number of Collect and Flush calls, every timeout pattern and every underlying error pattern", "why_tests_cant": "Schedules are unbounded; loss or duplication would appear only under particular interleavings.", "anchors": ["collector.go:ChunkedCollector.Collect", "collector.go:ChunkedCollector.Flush", "collector.go:ChunkedCollector.start"]}
{"id": "C15", "title": "Flush groups by span and preserves per-span order", "statement": "A Flush that does not time out calls the underlying collector exactly once for each span collected since the previous flush or drop, with that span's annotations concatenated in the order they were collected, whatever order the spans are visited in.", "quantifier": "every sequence of Collect calls, every map iteration order", "why_tests_cant": "All interleavings of spans and all iteration orders.", "anchors": ["collector.go:ChunkedCollector.Collect", "collector.go:ChunkedCollector.Flush"]}
{"id": "C16", "title": "A stopped ChunkedCollector sends nothing more", "statement": "After Stop returns, every Collect fails and leaves the queue unchanged, and no more data is sent to the underlying collector; Stop may be called at any time, any number of times.", "quantifier": "every history around Stop, every schedule of the background flusher", "why_tests_cant": "The select between timer and stop channel and calls in flight are schedule dependent.", "anchors": ["collector.go:ChunkedCollector.Stop", "collector.go:ChunkedCollector.start", "collector.go:ChunkedCollector.Flush"]}
{"id": "C17", "title": "Background flush errors are reported", "statement": "An error from a background flush is returned by exactly one later successful-path Collect call, and never by more than one; while no background flush has failed, Collect returns an error only when it drops the queue or is stopped.", "quantifier": "every interleaving of Collect calls and background flush outcomes", "why_tests_cant": "Error hand-over between goroutines depends on the schedule.", "anchors": ["collector.go:ChunkedCollector.Collect", "collector.go:ChunkedCollector.start"]}
{"id": "C18", "title": "Trace always returns a finite tree without repeated spans", "statement": "For every history of Collect and Delete calls, with any IDs in any order (including missing, repeated, conflicting or cyclic parents), Collect never panics, and Trace(t) returns either ErrTraceNotFound or a finite tree in which no span occurs twice and every span was collected for t since t was last deleted; it is not-found exactly when no span of t was collected since then.", "quantifier": "every history of Collect/Delete with arbitrary IDs", "why_tests_cant": "Arbitrary arrival orders of arbitrarily many spans with arbitrary parent pointers.", "anchors": ["store.go:MemoryStore.Collect", "store.go:MemoryStore.collectNoLock", "store.go:MemoryStore.insert", "store.go:MemoryStore.reattachChildren", "store.go:MemoryStore.Trace", "store.go:MemoryStore.Delete"]}
{"id": "C19", "title": "No collected span is lost", "statement": "Every span collected for a trace (and not deleted) occurs in the tree returned by Trace, unless following declared parents upwards from it runs into a cycle; once a parentless span has been collected (and no span has ID 0), the spans in the tree are exactly those.", "quantifier": "every history of Collect/Delete; every span", "why_tests_cant": "All arrival orders and all shapes of the parent relation, including degenerate ones from buggy or hostile clients.", "anchors": ["store.go:MemoryStore.collectNoLock", "store.go:MemoryStore.insert", "store.go:MemoryStore.reattachChildren"]}
{"id": "C20", "title": "A span sits under its declared parent", "statement": "In the tree returned by Trace, every span other than the root is a child of its declared parent if that has been collected, and a direct child of the root otherwise. The parent that counts (and is shown) is the one in the first Collect for the span.", "quantifier": "every history of Collect/Delete; every span", "why_tests_cant": "Late arrival of parents re-hangs subtrees; all arrival orders matter.", "anchors": ["store.go:MemoryStore.collectNoLock", "store.go:MemoryStore.insert", "store.go:MemoryStore.reattachChildren"]}
{"id": "C21", "title": "The real root becomes the trace root", "statement": "As soon as a span with no parent has been collected for a trace, and provided no collected span has ID 0, the root of the returned tree is a parentless span: the most recently first-collected one; otherwise the root is some collected span (a temporary root).", "quantifier": "every history of Collect/Delete", "why_tests_cant": "The root can arrive at any position in the stream.", "anchors": ["store.go:MemoryStore.collectNoLock", "span.go:SpanID.IsRoot"]}
{"id": "C22", "title": "The tree does not depend on arrival order", "statement": "For a set of spans with exactly one parentless span, no span ID 0 and one declared parent per span (parents may be missing), any two orders of collecting them, with annotations split over any number of Collect calls, give the same tree up to the order of siblings (and of annotations).", "quantifier": "every complete span tree, every permutation of the Collect calls", "why_tests_cant": "n! orders for n spans; the repository test samples 10 permutations.", "anchors": ["store.go:MemoryStore.collectNoLock", "store.go:MemoryStore.insert", "store.go:MemoryStore.reattachChildren"]}
{"id": "C23", "title": "Annotations are kept completely and in order", "statement": "In the tree returned by Trace, each span carries exactly the annotations passed to Collect for that span since the trace was last deleted, concatenated in call order, regardless of how often the span is re-hung in the tree.", "quantifier": "every history of Collect/Delete; every span", "why_tests_cant": "Unbounded histories; re-rooting touches nodes repeatedly.", "anchors": ["store.go:MemoryStore.collectNoLock"]}
{"id": "C24", "title": "Traces are isolated from each other", "statement": "A Collect for one trace or a Delete of one trace never changes what Trace returns for any other trace.", "quantifier": "every history, every pair of different trace IDs", "why_tests_cant": "Span IDs of different traces may coincide; all combinations.", "anchors": ["store.go:MemoryStore.collectNoLock", "store.go:MemoryStore.Delete"]}
{"id": "C25", "title": "Delete removes a trace completely", "statement": "Immediately after Delete(ids...), Trace returns ErrTraceNotFound for every listed ID and is unchanged for all others, and a later Collect for a deleted trace starts from an empty trace.", "quantifier": "every history, every list of IDs (repeated or unknown IDs included)", "why_tests_cant": "All prior histories.", "anchors": ["store.go:MemoryStore.Delete", "store.go:MemoryStore.deleteNoLock"]}
{"id": "C26", "title": "Traces lists exactly the requested traces", "statement": "Traces(opts) with no TraceIDs given returns each stored trace exactly once, in some order, as Trace would return it.", "quantifier": "every history, every TracesOpts", "why_tests_cant": "All histories and filters.", "anchors": ["store.go:MemoryStore.Traces", "store.go:TracesOpts", "store.go:Queryer"]}
{"id": "C27", "title": "Concurrent store calls are serialisable", "statement": "Any number of goroutines calling Collect, Delete, Trace and Traces on one MemoryStore concurrently have the same effect as performing the calls one at a time in the order in which they took the lock.", "quantifier": "every number of goroutines, every interleaving of their individual memory steps", "why_tests_cant": "Interleavings are unbounded.", "anchors": ["store.go:MemoryStore.Collect", "store.go:MemoryStore.Delete", "store.go:MemoryStore.Trace", "store.go:MemoryStore.Mutex"]}
{"id": "C28", "title": "A returned trace is a stable snapshot", "statement": "The *Trace obtained from Trace does not change when other calls are later made on the store.", "quantifier": "every history before and after the call", "why_tests_cant": "All later histories.", "anchors": ["store.go:MemoryStore.Trace", "store.go:MemoryStore.traceNoLock"]}
{"id": "C29", "title": "Persistence round-trip", "statement": "Writing a store and reading it back into any store makes Trace return, for every ID, the same tree (or not-found) as the original store at the time of writing, except that an empty annotation value may come back nil, and ReadFrom reports the number of traces.", "quantifier": "every store reachable by Collect, Delete and earlier restarts, every receiving store", "why_tests_cant": "All reachable pointer graphs.", "anchors": ["store.go:MemoryStore.Write", "store.go:MemoryStore.ReadFrom", "store.go:memoryStoreData"]}
{"id": "C30", "title": "A restart is transparent to later collection", "statement": "After Write and ReadFrom, every further history of Collect/Delete gives the same Trace results as if the store had never been written and read back.", "quantifier": "every history before and after the restart", "why_tests_cant": "Needs all continuations after all snapshots.", "anchors": ["store.go:MemoryStore.Write", "store.go:MemoryStore.ReadFrom", "store.go:MemoryStore.collectNoLock"]}
{"id": "C31", "title": "Periodic persistence is crash-safe", "statement": "At every instant of PersistEvery, including a crash between any two file-system steps and after any failed step, the store file holds either its initial content or one complete snapshot that was written earlier, never a partial one; and a process started again after any crash serves the traces of that snapshot.", "quantifier": "every crash point, every number of iterations, every failure of an individual step", "why_tests_cant": "Crash points cannot be enumerated by a unit test.", "anchors": ["store.go:PersistEvery"]}
{"id": "C32", "title": "LimitStore keeps at most Max traces", "statement": "With Max > 0 over an initially empty underlying store, after every Collect the underlying store holds at most Max traces.", "quantifier": "every Max > 0, every sequence of Collect calls with arbitrary trace IDs", "why_tests_cant": "Ring-buffer wrap-around at every capacity and every ID pattern.", "anchors": ["store.go:LimitStore.Collect"]}
{"id": "C33", "title": "LimitStore evicts oldest-first and keeps the rest intact", "statement": "The traces held are exactly the Max most recently admitted ones (a trace is admitted when it is collected while not held), eviction is in admission order, and each held trace is exactly what an unlimited store fed only with that trace's spans since its admission would hold.", "quantifier": "every Max > 0, every sequence of Collect calls", "why_tests_cant": "FIFO behaviour over unbounded histories with re-admissions.", "anchors": ["store.go:LimitStore.Collect", "store.go:LimitStore.ring"]}
{"id": "C34", "title": "RecentStore never evicts a young trace", "statement": "A trace is deleted from the underlying store only if an earlier Collect call decided to evict it and it had then been first seen (since its last eviction) more than MinEvictAge before; every Collect is passed on exactly once and every eviction is carried out exactly once.", "quantifier": "every interleaving of Collect calls and eviction goroutines, every clock", "why_tests_cant": "Eviction runs asynchronously after the lock is released.", "anchors": ["store.go:RecentStore.Collect", "store.go:RecentStore.evictBefore"]}
{"id": "C35", "title": "RecentStore bounds the age of retained traces", "statement": "After every Collect, every trace for which a Collect call was made since its last eviction was first seen at most twice MinEvictAge ago, plus the time that passed between the two clock readings of the last eviction.", "quantifier": "every sequence of Collect calls, every monotone clock", "why_tests_cant": "All timings.", "anchors": ["store.go:RecentStore.Collect", "store.go:RecentStore.evictBefore"]}
{"id": "C36", "title": "MultiStore and MultiQueryer combine stores as documented", "statement": "MultiStore.Collect offers the span to the stores in order and stops at the first error, which it returns; Trace returns the answer of the first store that does not say not-found; MultiQueryer.Traces returns each trace ID found in any queryer exactly once, taken from the first queryer that has it, whatever the options, or the first error (queryers that return no nil traces).", "quantifier": "every number of stores with arbitrary behaviour", "why_tests_cant": "Arbitrary many stores with arbitrary answers.", "anchors": ["multi.go:multiStore.Collect", "multi.go:multiStore.Trace", "multi.go:multiQueryer.Traces"]}
{"id": "C37", "title": "A Recorder writes its span exactly once", "statement": "For every sequence of Recorder calls, the recorded events reach the collector in exactly one Collect call, made by the first Finish, carrying the annotations of all events recorded before it, in order; events recorded after it are never sent; and nothing at all is sent before Finish unless an error has to be reported.", "quantifier": "every sequence of Recorder method calls, every collector behaviour", "why_tests_cant": "Unbounded call sequences, repeated Finish, failing collectors.", "anchors": ["recorder.go:Recorder.Event", "recorder.go:Recorder.Finish", "recorder.go:Recorder.Annotation", "recorder.go:Recorder.error"]}
{"id": "C38", "title": "Recorder errors are reported exactly once", "statement": "Without a Logger, every error the Recorder meets (unmarshalable event, failed collection, repeated Finish) is returned by exactly one later Errors call, in order; with a Logger, each is logged exactly once and Errors stays empty.", "quantifier": "every sequence of calls", "why_tests_cant": "Unbounded call sequences.", "anchors": ["recorder.go:Recorder.error", "recorder.go:Recorder.Errors", "recorder.go:Recorder.Finish"]}
{"id": "C39", "title": "Events survive marshalling", "statement": "For every event whose fields are booleans, integers, strings, times, floating-point numbers of float32 precision, durations of whole milliseconds below 2^53 ns, nested structs, string-keyed maps and sequences of those scalars, unmarshalling its own annotations, in any order and among any annotations whose keys do not clash with its field names, yields an equal event, provided the field names in each struct do not clash, the scalar types are built in, no sequence is empty and no nested struct is without annotations. All events of the library qualify.", "quantifier": "every event type of that shape and every value of it", "why_tests_cant": "Types are unboundedly nested and values arbitrary; the decoder matches sorted keys by prefix.", "anchors": ["event.go:MarshalEvent", "event.go:UnmarshalEvent", "reflect.go:flattenValue", "reflect.go:unflattenValue"]}
{"id": "C40", "title": "Unmarshalling checks the schema", "statement": "UnmarshalEvent returns a schema error if and only if the annotations contain no marker for the target event's schema, whatever else they contain, and then leaves the event untouched; MarshalEvent always adds exactly that marker.", "quantifier": "every annotation list, every event", "why_tests_cant": "Arbitrary annotation lists.", "anchors": ["event.go:UnmarshalEvent", "event.go:MarshalEvent", "span.go:Annotations.schemas"]}
{"id": "C41", "title": "UnmarshalEvents returns each recorded event", "statement": "If a span carries the annotations of several registered events that survive marshalling on their own and whose field names do not clash with each other, UnmarshalEvents returns those events, each equal to the one recorded, in recording order, ignoring unregistered schemas and other annotations. Registration succeeds exactly for new, non-empty schemas.", "quantifier": "every registry, every list of such events recorded on one span, every other annotation", "why_tests_cant": "Field names of different events on one span may coincide.", "anchors": ["event.go:UnmarshalEvents", "event.go:RegisterEvent", "span.go:Annotations.StringMap"]}
{"id": "C42", "title": "Span time bounds are the extremes of its timespan events", "statement": "Trace.TimespanEvent returns the earliest start and the latest end over all timespan events recorded on the span, provided their times are not the zero time and lie in the years UnixNano covers (1678 to 2261); it gives an error if and only if there are none.", "quantifier": "every list of recorded events with such times, in every order", "why_tests_cant": "Orders and zero times.", "anchors": ["trace.go:findTraceTimes", "trace.go:Trace.TimespanEvent"]}
{"id": "C43", "title": "FindSpan finds a span if and only if it is in the tree", "statement": "FindSpan(id) returns a subtree whose root span has that ID if any span in the tree has it (the first in depth-first order), and nil otherwise.", "quantifier": "every tree, every ID", "why_tests_cant": "Unbounded trees.", "anchors": ["trace.go:Trace.FindSpan"]}
{"id": "C44", "title": "HTTP span context is continued", "statement": "GetSpanID returns the Span-ID header's span when that header is present, otherwise a fresh child of the Parent-Span-ID header's span when present, otherwise a fresh root; a malformed relevant header gives an error; and a span ID written by SetSpanIDHeader is read back unchanged.", "quantifier": "every combination of header values, every SpanID", "why_tests_cant": "Arbitrary header strings.", "anchors": ["httptrace/header.go:GetSpanID", "httptrace/header.go:getSpanID", "httptrace/header.go:SetSpanIDHeader"]}
{"id": "C45", "title": "Traces connect across an HTTP call", "statement": "When a traced client calls a traced server, the server's span and the client's request span belong to the caller's trace and both have the caller's span as parent, and the caller's request object and its headers are left unmodified. If the collector accepts them, the two spans hold exactly one HTTP event each, from which the request, response, times and name can be read back.", "quantifier": "every request, every header map, every recorder span", "why_tests_cant": "Arbitrary headers.", "anchors": ["httptrace/client.go:Transport.RoundTrip", "httptrace/client.go:cloneRequest", "httptrace/server.go:Middleware"]}
{"id": "C46", "title": "Redacted header values never leave the process", "statement": "For every request or response, the recorded value of a header whose name is listed in RedactedHeaders (in any letter case) is the constant REDACTED, in headers and trailers, and no recorded entry under that name contains any part of its original values; what is recorded does not depend on those values at all; other headers are recorded with all their values, if no other spelling of the same name is present.", "quantifier": "every header and trailer map, every RedactedHeaders list", "why_tests_cant": "Arbitrary header maps, case variants and overlaps of header and trailer.", "anchors": ["httptrace/client.go:redactHeaders", "httptrace/client.go:isRedacted", "httptrace/client.go:RedactedHeaders"]}
{"id": "C47", "title": "A malformed span header does not break request handling", "statement": "The tracing middleware always passes the request on to the next handler, whatever the Span-ID and Parent-Span-ID headers contain.", "quantifier": "every header value", "why_tests_cant": "All malformed strings.", "anchors": ["httptrace/server.go:Middleware", "httptrace/header.go:getSpanID"]}
{"id": "C48", "title": "Recorded response status and size are what was sent", "statement": "The recorded content length is the total number of body bytes the handler wrote and the recorded status is the code of its last WriteHeader call, or 200 if there is none, for every sequence of WriteHeader/Write/Flush calls with non-zero codes, and the calls are passed on to the real writer unchanged.", "quantifier": "every sequence of response-writer calls", "why_tests_cant": "Unbounded sequences, repeated WriteHeader.", "anchors": ["httptrace/server.go:responseInfoRecorder"]}
{"id": "C49", "title": "Profile times add up", "statement": "In the profile of a trace, entries are the spans of the tree in depth-first order, each cumulative time is the span's own time plus the cumulative times of its children (hence the sum over its whole subtree), own-plus-children time is its own time plus its direct children's own times, and own times are never negative.", "quantifier": "every trace tree", "why_tests_cant": "Unbounded trees.", "anchors": ["traceapp/prof.go:App.calcProfile"]}
{"id": "C50", "title": "Aggregation totals are exact", "statement": "The aggregate view has one item for each label, in each of its three modes, and its value is the sum of the times of all traces (or spans) with that label, plus 1 if the first of them is 0; so it is at least 1 and at most 1 too large.", "quantifier": "every list of traces, every visiting order", "why_tests_cant": "Order is map iteration order.", "anchors": ["traceapp/aggregate.go:App.aggregate"]}
{"id": "C51", "title": "The timeline shows the timed spans", "statement": "If all spans are named, the timeline of a trace has, in depth-first order, an item for exactly the spans that have a timespan event with non-zero times and whose ancestors all have one. A root's item has one timespan for each such event, another span's item has one from the earliest start to the latest end, and the duration shown is that of the item's first timespan.", "quantifier": "every trace tree", "why_tests_cant": "Unbounded trees and event lists.", "anchors": ["traceapp/vis.go:App.d3timelineInner"]}
{"id": "C52", "title": "Export and upload reproduce a trace", "statement": "Uploading (or opening the permalink of) a trace or sub-trace exported from one store into a store that does not have that trace succeeds and makes Trace return exactly the exported tree, including sibling and annotation order, provided that annotation keys are valid UTF-8 and that no span other than the root is parentless or is the root's declared parent (which holds whenever exactly one collected span is parentless and no span has ID 0).", "quantifier": "every tree a store can return satisfying the conditions, every target store", "why_tests_cant": "All reachable trees.", "anchors": ["traceapp/app.go:App.uploadTraces", "traceapp/trace.go:collectTrace", "traceapp/app.go:App.serveTrace", "traceapp/app.go:App.serveTraceUpload"]}
{"id": "C53", "title": "Upload never alters existing traces", "statement": "Uploading traces leaves every trace that is already stored unchanged, and if the same trace ID occurs more than once in one upload only the first is stored.", "quantifier": "every store, every list of uploaded traces whose spans all carry their trace's ID", "why_tests_cant": "Arbitrary uploads.", "anchors": ["traceapp/app.go:App.uploadTraces"]}
{"id": "C54", "title": "Trace URLs lead back to their span", "statement": "For every trace and span ID, the URL built for a trace, span, trace profile or span profile is routed to the matching handler with route variables that parse back to the same IDs. Exactly the paths /traces/x, /traces/x/profile, /traces/x/y and /traces/x/y/profile, with names x and y that are not empty, have no slash and are not . or .., lead to these handlers. Of all requests, exactly a POST for /traces/upload is an upload, and all others are answered only if they are GET requests.", "quantifier": "every pair of IDs", "why_tests_cant": "2^128 pairs; route patterns overlap.", "anchors": ["traceapp/router.go:NewRouter", "traceapp/router.go:Router.URLToTraceSpan", "traceapp/app.go:App.serveTrace"]}
{"id": "C55", "title": "Basic auth admits exactly the configured credentials", "statement": "With basic auth configured, a request reaches the web app if and only if its Authorization header is exactly 'Basic ' followed by the base64 form of user:password; otherwise it gets 401 and the app is not run.", "quantifier": "every header value, every user and password", "why_tests_cant": "Arbitrary strings.", "anchors": ["cmd/appdash/serve_cmd.go:basicAuthHandler.ServeHTTP", "cmd/appdash/serve_cmd.go:newBasicAuthHandler"]}
{"id": "C56", "title": "A failing page shows no partial output", "statement": "For every web handler, if it returns an error or panics, the client receives only the error response; if it succeeds, having set no status or one of 200..999, the client receives exactly the status it set last (200 if none), the body it wrote (if the status allows one) and the headers it left, plus the content length.", "quantifier": "every handler behaviour", "why_tests_cant": "Handlers may fail after writing anything.", "anchors": ["traceapp/handler.go:handlerFunc.ServeHTTP", "traceapp/httputil.go:responseBuffer.WriteTo"]}
{"id": "C57", "title": "OpenTracing spans are recorded completely or not at all", "statement": "However many spans are recorded at once and whatever the collector refuses: RecordSpan of an unsampled span makes no collector call; of a sampled span it collects, under the span's own IDs, its name, every log in order, every tag, every baggage item and its start/end time, each failed call being followed by a report of the error and nothing else being sent; a failing collector is logged at most once unless Verbose, and otherwise once for every refused report.", "quantifier": "every set of raw spans, every interleaving, every collector behaviour", "why_tests_cant": "Arbitrary tags, logs, baggage and failures.", "anchors": ["opentracing/recorder.go:Recorder.RecordSpan", "opentracing/recorder.go:Recorder.logError"]}
{"id": "C58", "title": "Traces honours the requested trace IDs", "statement": "Traces(opts) with a non-empty opts.TraceIDs returns exactly the stored traces with those IDs.", "quantifier": "every history, every list of IDs", "why_tests_cant": "All histories and ID lists.", "anchors": ["store.go:MemoryStore.Traces", "store.go:TracesOpts"]}
{"id": "C59", "title": "Writing a store returns", "statement": "Write returns for every store, whatever was collected.", "quantifier": "every store reachable by Collect/Delete", "why_tests_cant": "Malformed traces from buggy or hostile clients are not in any test suite.", "anchors": ["store.go:MemoryStore.Write", "store.go:MemoryStore.collectNoLock"]}
{"id": "C60", "title": "RecentStore keeps the spans collected after an eviction", "statement": "When no call or eviction is in progress, every trace for which Collect was called after its last eviction was decided is found by Trace, with all spans collected since then.", "quantifier": "every interleaving of Collect calls and eviction goroutines", "why_tests_cant": "Eviction runs asynchronously, so it may hit spans collected after the decision.", "anchors": ["store.go:RecentStore.Collect", "store.go:RecentStore.evictBefore"]}
{"id": "C61", "title": "RecentStore loses track of no trace", "statement": "When no call or eviction is in progress, every trace that Trace finds is tracked, so that a later eviction deletes it.", "quantifier": "every interleaving of Collect calls and eviction goroutines", "why_tests_cant": "Eviction runs asynchronously; leaks only show after a long time.", "anchors": ["store.go:RecentStore.Collect", "store.go:RecentStore.evictBefore"]}
{"id": "C62", "title": "No event is lost in marshalling", "statement": "Every event of distinct field names survives marshalling, also one with empty sequences, empty nested structs, names that extend each other, or fields of defined scalar types.", "quantifier": "every event type and value", "why_tests_cant": "The decoder consumes sorted keys by prefix; which values it loses depends on names and emptiness.", "anchors": ["reflect.go:unflattenValue", "reflect.go:flattenValue", "event.go:UnmarshalEvent"]}
{"id": "C63", "title": "Every event recorded on a span is returned", "statement": "UnmarshalEvents returns every event recorded on a span as recorded, also two events of the same type or with common field names.", "quantifier": "every list of library events on one span", "why_tests_cant": "Field names of different events on one span may coincide.", "anchors": ["event.go:UnmarshalEvents", "span.go:Annotations.StringMap", "recorder.go:Recorder.Event"]}
{"id": "C64", "title": "Span time bounds hold for all times", "statement": "Trace.TimespanEvent returns the earliest start and the latest end over all timespan events of the span, also if a time is the zero time or lies outside the years 1678 to 2261.", "quantifier": "every list of recorded events with arbitrary times", "why_tests_cant": "Zero and far-away times, and their position among other events.", "anchors": ["trace.go:findTraceTimes", "trace.go:Trace.TimespanEvent"]}
{"id": "C65", "title": "Aggregation does not depend on the order of traces", "statement": "The aggregate view shows the same value for each label in whatever order the store returns the traces.", "quantifier": "every list of traces, every visiting order", "why_tests_cant": "The order is map iteration order.", "anchors": ["traceapp/aggregate.go:App.aggregate"]}
{"id": "C66", "title": "The timeline hides no timed span", "statement": "If all spans are named, the timeline of a trace contains an item for every span that has a timespan event with non-zero times.", "quantifier": "every trace tree", "why_tests_cant": "Unbounded trees with untimed spans anywhere.", "anchors": ["traceapp/vis.go:App.d3timelineInner"]}
{"id": "C67", "title": "Each timespan in the timeline carries its own duration", "statement": "Each timespan shown in the timeline carries the duration between its own start and end.", "quantifier": "every trace tree, every list of timespan events", "why_tests_cant": "Unbounded trees and event lists.", "anchors": ["traceapp/vis.go:App.d3timelineInner"]}
{"id": "C68", "title": "The recorded status is the one the client receives", "statement": "The recorded response status is the status that the client receives, for every sequence of WriteHeader/Write/Flush calls by the handler.", "quantifier": "every sequence of response-writer calls", "why_tests_cant": "Unbounded sequences, with WriteHeader after output or repeated.", "anchors": ["httptrace/server.go:responseInfoRecorder"]}
{"id": "C69", "title": "Upload reproduces every trace", "statement": "Uploading the export of any trace into a store that does not have the trace reproduces the trace.", "quantifier": "every tree a store can return, every target store", "why_tests_cant": "Trees with several roots, and arbitrary annotation keys.", "anchors": ["traceapp/app.go:App.uploadTraces", "traceapp/trace.go:collectTrace"]}
{"id": "C70", "title": "No upload whatsoever alters a stored trace", "statement": "No upload changes a trace that is already stored, whatever span IDs the uploaded data contains.", "quantifier": "every store, every uploaded list of traces", "why_tests_cant": "Arbitrary uploads, with sub-spans of other traces.", "anchors": ["traceapp/app.go:App.uploadTraces", "traceapp/trace.go:collectTrace"]}
{"id": "C71", "title": "A failed upload stores nothing", "statement": "An upload request that is answered with an error leaves the store as it was.", "quantifier": "every store, every JSON value", "why_tests_cant": "Arbitrary JSON, with null anywhere.", "anchors": ["traceapp/app.go:App.serveTraceUpload", "traceapp/app.go:App.uploadTraces", "traceapp/trace.go:collectTrace"]}
{"id": "C72", "title": "A recorded OpenTracing span can be read back", "statement": "For every OpenTracing span that is recorded without collector errors into a fresh span, the span's name is the operation, and UnmarshalEvent of Timespan gives its start and end time, whatever tags, logs and baggage the span has, even if their keys are 'Name' or 'Span.Start'; every tag and baggage item is an annotation.", "quantifier": "every raw span; times with years 0 to 9999 and zones of whole minutes", "why_tests_cant": "Tags and baggage have arbitrary keys.", "anchors": ["opentracing/recorder.go:Recorder.RecordSpan", "span.go:Span.Name", "event.go:UnmarshalEvent"]}
{"id": "C73", "title": "Events of scalar fields survive among any annotations", "statement": "If an event whose fields are all scalars (such as the name, message, log, timespan and SQL events) is recorded on a span, UnmarshalEvent reads it back exactly, whatever annotations the span had before and whatever are added later, as long as no later annotation has the key of one of its fields.", "quantifier": "every such event type and value, all annotations before, all annotations after with other keys", "why_tests_cant": "The decoder scans all annotations of the span in sorted order.", "anchors": ["event.go:UnmarshalEvent", "reflect.go:unflattenValue"]}
{"id": "C74", "title": "The causal tree is reconstructed", "statement": "Whatever tree of spans the application created with NewRootSpanID and NewSpanID, if all its spans are reported (in any order, with any number of calls per span, mixed with calls for other traces), Trace returns that tree with exactly the annotations reported, up to the order of siblings and annotations; this also holds when the calls go through a ChunkedCollector and a RemoteCollector whose connections break, as long as nothing was dropped or arrived twice, and the shape of the tree holds even if packets arrived twice.", "quantifier": "every causal tree with distinct nonzero span IDs, every order and splitting of the calls, every schedule of the chunked collector and the network", "why_tests_cant": "End-to-end composition over unbounded trees, schedules and faults.", "anchors": ["span.go:NewRootSpanID", "span.go:NewSpanID", "store.go:MemoryStore.Collect", "store.go:MemoryStore.Trace", "collector.go:ChunkedCollector", "collector.go:RemoteCollector"]}
{"id": "C75", "title": "The Python collector's packets are received", "statement": "For every span ID and every list of annotations, the Python client sends the same bytes as the Go client. If no packet is sent while another one has been sent in part, a Go server receives exactly the packets whose Python collect returned, in that order, however the operating system splits the sends and wherever the stream ends. One thread without failed sends, and any number of threads whose sends are never split, are such cases.", "quantifier": "every span ID and annotation list, every sequence of collect calls by any threads, every splitting of the sends, every cut of the stream", "why_tests_cant": "Unbounded packet sizes and all schedules of partial sends.", "anchors": ["python/appdash/encode.py", "python/appdash/sockcollector.py:RemoteCollector", "collector.go:CollectorServer"]}
{"id": "C76", "title": "Every Python collect that returns is received", "statement": "Every packet whose Python collect returned is received by the server, and the server receives only packets that were collected, whatever sends fail and however many threads share the collector.", "quantifier": "every sequence of collect calls, partial sends and errors of any threads", "why_tests_cant": "Interleavings of partial sends and failures in the middle of a packet.", "anchors": ["python/appdash/sockcollector.py:RemoteCollector"]}
{"id": "C77", "title": "Python span IDs are understood", "statement": "Go's ParseSpanID reads the text of every Python span ID as that ID; a Python child of a span is in its trace and has it as parent; Python root IDs have the shape of Go's.", "quantifier": "every span ID", "why_tests_cant": "All 192-bit IDs, with leading zeros in each part.", "anchors": ["python/appdash/spanid.py:SpanID", "span.go:ParseSpanID"]}
{"id": "C78", "title": "The Twisted collector delivers each packet once", "statement": "Each packet collected by a Twisted collector is written once to a connection of that collector, or is still pending; no other packet is written.", "quantifier": "every sequence of creating collectors, collecting, connecting, losing connections and flushing", "why_tests_cant": "All orders of events and any number of collectors in one process.", "anchors": ["python/appdash/twcollector.py:RemoteCollectorFactory", "python/appdash/twcollector.py:RemoteCollector"]}
{"id": "C79", "title": "The Python OpenTracing recorder records everything", "statement": "Recording a sampled span raises no exception and reports its name, times, and every tag and baggage item that is a string; recording an unsampled span reports nothing.", "quantifier": "every span, every iteration order of dictionaries", "why_tests_cant": "Arbitrary tags and baggage.", "anchors": ["python/appdash/recorder.py:AppdashRecorder.record_span"]}
{"id": "C80", "title": "Simple Python events are read by Go", "statement": "The name, message, log, time span and SQL events of the Python client are read by Go's UnmarshalEvent as events with the values given in Python, in whatever order the dictionary yields the fields, whatever annotations the span had before and whatever annotations are added later under other keys.", "quantifier": "every such event, every order, all annotations before and after", "why_tests_cant": "Arbitrary values and surrounding annotations.", "anchors": ["python/appdash/event.py:MarshalEvent", "event.go:UnmarshalEvent"]}
{"id": "C81", "title": "Python HTTP events are read by Go", "statement": "The route, user and times of Python's HTTP server and client events are read by Go's UnmarshalEvent as those of the corresponding Go events.", "quantifier": "every Python HTTP event, every order of its fields", "why_tests_cant": "Arbitrary requests and responses.", "anchors": ["python/appdash/event.py:HTTPServerEvent", "python/appdash/event.py:HTTPClientEvent", "httptrace/server.go:ServerEvent", "httptrace/client.go:ClientEvent"]}
{"id": "C82", "title": "The exported text of a trace uploads as it is", "statement": "The JSON text that a trace's page offers for export, byte for byte or with any other white space between its parts, uploaded to a store without the trace is accepted and makes Trace return exactly the exported tree, provided the keys are valid UTF-8 and no span other than the root is parentless or is the root's declared parent; the page of a span exports the sub-trace below it in the same way. Any other body either is not JSON of a list of traces and stores nothing, or alters no trace to which none of its spans belongs.", "quantifier": "all reachable stores, traces, annotation keys and values, all layouts of the text, all bodies", "why_tests_cant": "Arbitrary trees and byte strings, with escaping, invalid UTF-8 and white space.", "anchors": ["traceapp/app.go:serveTrace", "traceapp/app.go:serveTraceUpload", "traceapp/app.go:uploadTraces", "trace.go:Trace", "span.go:Annotation", "id.go:MarshalJSON"]}
{"id": "C83", "title": "Permalinks carry the trace", "statement": "Visiting the permalink shown on a trace's or span's page, on any server that does not have the trace, shows a page with the same tree, timeline and profile URL and stores a copy of the tree there without touching other traces, provided the keys are valid UTF-8 and no span other than the tree's root is parentless or is the root's declared parent; although the encoder is never closed and the link can lack the last bytes of the compressed text; a link that has them, also one broken into lines, leads to the same page. On a server that has the trace the link stores nothing and shows what is there. Visiting any other URL alters no trace unless its permalink contains a span of that trace.", "quantifier": "all reachable stores, pages, traces and URLs; every compression library whose reader inverts its writer", "why_tests_cant": "Arbitrary trees and lengths of the compressed text.", "anchors": ["traceapp/app.go:serveTrace", "traceapp/app.go:uploadTraces", "traceapp/router.go:URLToTrace"]}
{"id": "C84", "title": "The aggregate page covers exactly the selected traces", "statement": "If the selection parameter lists distinct trace IDs, the aggregate page aggregates exactly the trees that Trace returns for these IDs, each once, whatever order the store lists its traces in; without a selection it aggregates all traces; a selection with something that is not an ID is an error.", "quantifier": "all reachable stores, listing orders, query strings", "why_tests_cant": "Arbitrary stores and queries.", "anchors": ["traceapp/app.go:serveAggregate", "traceapp/app.go:serveTraces"]}
{"id": "C85", "title": "The dashboard shows the aggregator's results", "statement": "The dashboard's data is a JSON list with one row per result of the aggregator for the requested time range, in its order, with name, times, number of traces and a link; following the link of a row with slowest traces leads to the list of exactly these traces. The slider's positions stand for that many hours of the last three days; a range end that is no number is an error and the aggregator is not asked.", "quantifier": "all aggregators, results, IDs and query strings; slider positions within 290 years", "why_tests_cant": "Arbitrary names, with escaping and invalid UTF-8, and arbitrary IDs.", "anchors": ["traceapp/app.go:serveDashboardData", "traceapp/app.go:serveTraces", "traceapp/tmpl/data/dashboard.html"]}
{"id": "C86", "title": "A selection of traces can be moved to another store", "statement": "Uploading any JSON text of the list of the exported forms of distinct selected traces succeeds; each selected trace that the other store did not have is then returned exactly as exported, and all its other traces, including those of the selection that it had, are unchanged; provided the keys are valid UTF-8 and no span other than a tree's root is parentless or is the root's declared parent.", "quantifier": "all reachable pairs of stores, selections, and JSON texts of the list", "why_tests_cant": "Arbitrary selections, texts and stores.", "anchors": ["traceapp/app.go:serveTraceUpload", "traceapp/app.go:uploadTraces", "traceapp/tmpl/data/traces.html"]}
{"id": "C87", "title": "The pages show the annotations", "statement": "The full table of a span has one row for each annotation collected for the span, in order, except those whose key is empty or begins with an underscore; the table shown first has exactly those of these rows whose key some registered event finds important. A recorded event of the library is shown completely, each field once, without its schema marker; the status codes of HTTP events and the query and tag of SQL events are in the first table.", "quantifier": "all histories of the store, spans, registries, events and other annotations on the span", "why_tests_cant": "Arbitrary histories and events.", "anchors": ["span.go:Annotation.Important", "traceapp/tmpl.go:filterAnnotations", "traceapp/tmpl/data/trace.html", "httptrace/client.go:ClientEvent", "httptrace/server.go:ServerEvent", "sqltrace/sql.go:SQLEvent"]}
{"id": "C88", "title": "Cancelling a request cancels that round trip only", "statement": "Cancelling a request while the underlying transport is at work on it makes the underlying transport, if it can cancel, cancel exactly once, with the very request it was given for that round trip, provided the request is not sent twice at once; cancelling an idle request does nothing, no other round trip is ever cancelled, the underlying transport never gets the caller's request itself or one request for two round trips, and once all round trips have returned the transport remembers none of them.", "quantifier": "all interleavings of any number of round trips and cancellations by any number of goroutines", "why_tests_cant": "Arbitrary schedules.", "anchors": ["httptrace/client.go:Transport.RoundTrip", "httptrace/client.go:Transport.CancelRequest", "httptrace/client.go:Transport.setCloneRequest"]}
{"id": "C89", "title": "Cancelling after the round trip returned", "statement": "As net/http asks for CancelRequest, cancelling a request after RoundTrip has returned (while its body is being read) reaches the underlying transport.", "quantifier": "all interleavings of round trips and cancellations", "why_tests_cant": "Arbitrary schedules.", "anchors": ["httptrace/client.go:Transport.CancelRequest", "httptrace/client.go:Transport.RoundTrip"]}
{"id": "C90", "title": "The server middleware does not alter responses", "statement": "Behind the middleware, a handler that does not ask for optional interfaces of the response writer (except that it may flush when it can) gives the client exactly the status, header and body it would give without, if it sends anything; if it sends nothing, the response only gains the header with the request's span.", "quantifier": "all handlers (sequences of header edits, writes, flushes), response writers, spans and initial headers", "why_tests_cant": "Arbitrary handlers.", "anchors": ["httptrace/server.go:Middleware", "httptrace/server.go:responseInfoRecorder"]}
{"id": "C91", "title": "Every response names its span", "statement": "Every response that passes the middleware carries the header with the span of the request, and every handler works behind the middleware as without.", "quantifier": "all handlers, response writers, spans and initial headers", "why_tests_cant": "Arbitrary handlers.", "anchors": ["httptrace/server.go:Middleware", "httptrace/server.go:responseInfoRecorder"]}
{"id": "C92", "title": "Recording leaves headers alone", "statement": "Recording a request or response changes none of its header and trailer values, and records what they are, although values of header and trailer are joined by append on shared slices; provided no header value has spare capacity that it shares with another value.", "quantifier": "all headers and trailers, all layouts of their values in memory, all iteration orders of maps", "why_tests_cant": "Arbitrary aliasing of slices.", "anchors": ["httptrace/client.go:redactHeaders", "httptrace/client.go:requestInfo", "httptrace/client.go:responseInfo"]}
{"id": "C93", "title": "The links on pages lead to the spans they stand for", "statement": "The links for the spans of a stored trace, in timelines, in profiles and on the page itself, lead to the page (or profile) of that span and everything below it.", "quantifier": "all histories of the store, traces, parts of traces and spans", "why_tests_cant": "Arbitrary trees and IDs.", "anchors": ["traceapp/app.go:serveTrace", "traceapp/vis.go:d3timelineInner", "traceapp/prof.go:calcProfile", "traceapp/router.go:URLToTraceSpan"]}
{"id": "C94", "title": "Collected text cannot become markup", "statement": "However keys, values and names of spans are chosen, a browser reads the annotation tables of a page as tables with one row for each shown annotation, whose cells hold key and value as text (zero bytes become U+FFFD); the boxes of the list of traces carry exactly the JSON texts of the traces, so that checking boxes, exporting and uploading moves the checked traces; and the timeline's data in a script contains nothing that could end the script.", "quantifier": "all histories of the store, spans, annotations, lists of traces and checked boxes", "why_tests_cant": "Arbitrary bytes in names, keys and values.", "anchors": ["traceapp/tmpl/data/trace.html", "traceapp/tmpl/data/traces.html", "trace.go:Trace.String", "traceapp/app.go:serveTrace"]}
{"id": "C95", "title": "Names of spans are shown as text in tooltips and menus", "statement": "When the mouse is over an item of the timeline, or its menu is open, the browser shows the name of the span as it was collected.", "quantifier": "all traces and names", "why_tests_cant": "Arbitrary bytes in names.", "anchors": ["traceapp/tmpl/data/trace.html:timespanHover", "traceapp/tmpl/data/trace.html:ctxMenuOpen", "traceapp/vis.go:d3timelineInner"]}
{"id": "C96", "title": "Show Children, Hide Children and filters apply to exactly the spans below", "statement": "In the timeline of a stored trace, Show Children and Hide Children on an item end, and show or hide exactly the items of the spans below it in the trace; filtering by key:\"value\" shows exactly those of them whose span carries that annotation.", "quantifier": "all histories of the store, traces, items, filters and flags", "why_tests_cant": "Arbitrary trees and parent links.", "anchors": ["traceapp/tmpl/data/trace.html:setChildrenVisible", "traceapp/tmpl/data/trace.html:filterChildren", "traceapp/vis.go:d3timelineInner"]}
{"id": "C97", "title": "appdash serve deletes old traces, also across restarts", "statement": "With --delete-after, appdash serve shows no trace whose spans all were collected more than twice that age before the last span; also if the server was restarted in between and read its store file.", "quantifier": "all histories of collected spans, replacements of the store file, crashes and restarts; all schedules of calls and evictions; all clocks that do not go backwards", "why_tests_cant": "Arbitrary histories with crashes.", "anchors": ["cmd/appdash/serve_cmd.go:ServeCmd.Execute", "store.go:RecentStore.Collect", "store.go:MemoryStore.ReadFrom", "store.go:PersistEvery"]}
{"id": "C98", "title": "A recorder shared by goroutines loses no error and no annotation", "statement": "However calls on one Recorder from several goroutines are interleaved: every error met is reported to the collector once, and is either logged once (with a Logger) or returned by exactly one call of Errors; what each goroutine gives to Annotation reaches the collector once, in its order; and no call waits for another.", "quantifier": "all programs of calls, numbers of goroutines, interleavings, collectors and answers", "why_tests_cant": "Arbitrary schedules.", "anchors": ["recorder.go:Recorder.Errors", "recorder.go:Recorder.error", "recorder.go:Recorder.Annotation"]}
{"id": "C99", "title": "Events and Finish in several goroutines", "statement": "However calls on one Recorder from several goroutines are interleaved, Finish sends only once, and sends all events whose calls returned before it was called.", "quantifier": "all programs of calls, numbers of goroutines and interleavings", "why_tests_cant": "Arbitrary schedules.", "anchors": ["recorder.go:Recorder.Event", "recorder.go:Recorder.Finish"]}
{"id": "C100", "title": "Durations in events are read back", "statement": "A time.Duration in an event is read back unchanged by UnmarshalEvent.", "quantifier": "all event types and durations", "why_tests_cant": "Floating-point rounding over all 2^64 durations.", "anchors": ["reflect.go:flattenValue", "reflect.go:parseValueToPtr"]}
{"id": "C101", "title": "Floating-point numbers in events are read back", "statement": "A float64 or float32 in an event is read back unchanged by UnmarshalEvent, and so are the event's other fields.", "quantifier": "all event types, floating-point numbers and other fields", "why_tests_cant": "Decimal conversion and rounding over all values.", "anchors": ["reflect.go:flattenValue", "reflect.go:parseValueToPtr", "event.go:UnmarshalEvent"]}
{"id": "C102", "title": "Recording an event never panics", "statement": "MarshalEvent, and with it Recorder.Event, does not panic, whatever the event's type and value.", "quantifier": "all event types, built from scalars, defined types with and without a String method, pointers, interfaces, structs, maps and sequences, and all their values", "why_tests_cant": "Types and values are unboundedly nested; which of them panic depends on nil pointers anywhere inside.", "anchors": ["event.go:MarshalEvent", "reflect.go:flattenValue", "recorder.go:Recorder.Event"]}
{"id": "C103", "title": "Recorded events can be read back, whatever the types of their fields", "statement": "An event struct that has been recorded, with fields of any type (pointers, interfaces, types with a String method), is read back by UnmarshalEvent as an equal event.", "quantifier": "all event types and values, and all texts that String methods return", "why_tests_cant": "Each kind of field type takes another path in both directions, and they nest.", "anchors": ["event.go:UnmarshalEvent", "reflect.go:flattenValue", "reflect.go:unflattenValue", "reflect.go:parseValueToPtr"]}
{"id": "C104", "title": "Annotations cannot make reading events panic", "statement": "Whatever annotations a span has, also ones that no event wrote, UnmarshalEvent and UnmarshalEvents return; they do not panic.", "quantifier": "all event types, registries and lists of annotations", "why_tests_cant": "Annotations come from any client of the collector and are arbitrary bytes.", "anchors": ["event.go:UnmarshalEvents", "event.go:UnmarshalEvent", "reflect.go:unflattenValue"]}
{"id": "C105", "title": "What a program records is what the store shows", "statement": "A program makes a tree of spans with NewRootSpanID and NewSpanID and has one Recorder per span, on which it records events of the library of different types (not both a Msg and a Log) and calls Finish once. Whichever way the recorders' calls reach the store - directly, through a ChunkedCollector that has handed on everything and dropped nothing, through a RemoteCollector and any number of connections of which some break, or through both - in any order and mixed with other traces, Trace returns a tree with exactly the program's spans under their parents, and UnmarshalEvents of each span's annotations returns exactly the events recorded on this span, in order. If packets arrived more than once because of retries, the tree is the same and each span's events come back, in order, as many times as its packet arrived, which is at most twice for each Collect call.", "quantifier": "all trees, events and field values, interleavings, flushes, broken connections, orders of arrival, and other traces", "why_tests_cant": "The claim spans every component and holds for any schedule and any data; a test runs one program on one schedule.", "anchors": ["recorder.go:Recorder.Event", "recorder.go:Recorder.Finish", "collector.go:ChunkedCollector.Collect", "collector.go:RemoteCollector.Collect", "collector.go:CollectorServer", "store.go:MemoryStore.Collect", "store.go:MemoryStore.Trace", "event.go:UnmarshalEvents"]}
{"id": "C106", "title": "TreeString shows the trace", "statement": "TreeString returns a text that shows the trace: two traces have the same text only if they agree in the root's trace ID, in the tree of spans below the root with their IDs and their parents' IDs, and in all keys and values of annotations, in order (nil values counting as empty). This holds if no key or value contains a line break and no key contains an equals sign; then for the trees that programs make, with at least one span below the root, the text determines every ID. It fails otherwise: a client can choose the value of an annotation so that the text shows any subtree it likes that is not in the trace.", "quantifier": "all pairs of traces of any depth and width", "why_tests_cant": "The text is ambiguous only for particular data; a test compares the texts of a few traces (the project's own test of TreeString is skipped).", "anchors": ["trace.go:Trace.TreeString", "trace.go:Trace.treeString"]}
{"id": "C107", "title": "appdash send reports when it could not deliver", "statement": "If the collector answers the calls with errors - for example because the server cannot be reached - then appdash send returns an error. This is FALSE of the code: the recorders are asked for errors before Finish calls the collector, the recorder of a root span is never asked, and the ChunkedCollector that is flushed at the end was never given anything; so send returns nil even if every call fails. What holds: the result does not depend on the collector at all, an unknown protocol is reported, if send returns nil then the collector was called for every span, and if the name of a span below the root cannot be encoded then send returns an error and makes no calls for later traces.", "quantifier": "all answers of the collector, random numbers, clocks and protocols", "why_tests_cant": "A test with a working server passes; that the result is nil for every behaviour of the collector needs an argument over all of them.", "anchors": ["cmd/appdash/send_cmd.go:SendCmd.Execute", "cmd/appdash/sample_data.go:sampleData", "recorder.go:Recorder.Errors", "recorder.go:Recorder.Finish"]}
{"id": "C108", "title": "The sample data is consistent", "statement": "Whatever the random numbers are: randomSplit of a number that is not negative into n >= 1 segments does not panic and returns n segments, none negative, whose sum is the number; each of the 60 traces of sampleData is a root span and a chain of three to six spans, each below the one before; the query events of the chain follow each other in time without gaps from the beginning to the end of the root's, which is less than a second long and began less than 100 minutes ago; and a store that has received the calls in any order shows each trace with its events. The IDs must differ, the collector must accept the calls, and the clock must show a time from 1970 to 2262.", "quantifier": "all random numbers, IDs, clocks, time zones (also when the offset changes during a trace) and orders of arrival", "why_tests_cant": "The data is random; a test sees one outcome per run.", "anchors": ["cmd/appdash/sample_data.go:randomSplit", "cmd/appdash/sample_data.go:sampleData"]}
{"id": "C109", "title": "Queries tagged with span IDs stay the same queries", "statement": "SpanID.Format with a format that has %s for the ID and %s for the query puts exactly the ID's text and exactly the query in these places, whatever bytes the query consists of. If the ID stands in a leading comment, then a database that skips comments (nested or not) reads exactly the query, for every ID and query, and the ID can be read back from the comment. The format of the documented example, /* %s/%s */ %s, does not have this property: the query ends up in the comment and the database reads %!s(MISSING).", "quantifier": "all span IDs, queries and comment words", "why_tests_cant": "A test formats a few IDs and queries; that no ID can end the comment early and no query is altered is about all of them.", "anchors": ["span.go:SpanID.Format", "span_test.go:ExampleSpanID_Format"]}
{"id": "C110", "title": "Trace.String and Span.String show everything", "statement": "The text returned by Trace.String and Span.String is JSON, reading it as JSON gives back the trace (all spans in order, IDs, annotations) or the span, and different traces or spans have different texts, provided the annotation keys are valid UTF-8. (Keys that are not valid UTF-8 are altered, so two such traces may look alike.)", "quantifier": "all traces and spans", "why_tests_cant": "A test prints a few traces; that the text determines the trace is about all pairs of traces.", "anchors": ["trace.go:Trace.String", "span.go:Span.String"]}
{"id": "C111", "title": "A collector server with many clients stores what they send", "statement": "A CollectorServer over a MemoryStore handles any number of clients at once. In every state, the store is the result of the packets collected so far; those of one client are collected in the order it sent them, and are the packets that its bytes consist of, as if it were the only client. When no handler can go on (which happens after finitely many steps if nothing more arrives), the packets of all clients whose connections did not break on the server's side have been collected, each once. The process ends only if a client sent a packet without parent. A client can always connect. Consequently what a traced program records through a RemoteCollector is shown by the server's store, whatever other clients send.", "quantifier": "all numbers of clients, all bytes they send, all ways these arrive in parts, all interleavings of the handlers", "why_tests_cant": "A test runs a few connections in one order; partial reads and interleavings are endless.", "anchors": ["collector.go:CollectorServer.Start", "collector.go:CollectorServer.handleConn", "collector.go:NewServer", "cmd/appdash/serve_cmd.go:ServeCmd.Execute"]}
{"id": "C112", "title": "Closing the listener stops the server", "statement": "If the listener given to NewServer is closed, Start returns. This is FALSE of the code: Start logs the error of Accept and calls Accept again, for ever. What holds: nothing else happens; the log grows without bound.", "quantifier": "all states of the server", "why_tests_cant": "That a loop is never left is about all its iterations.", "anchors": ["collector.go:CollectorServer.Start"]}
{"id": "C113", "title": "Without -url the dashboard refers to the server's own address", "statement": "appdash serve uses the URL given by -url; without it, the base URL of the pages is that of the HTTP address it listens on, with localhost for a missing host, so that the links and scripts of the pages lead to the server. This is FALSE of the code in two cases: the brackets of IPv6 addresses are lost (-http=[::1]:7700 gives http://::1:7700), and the scheme is http also if the server uses TLS. What holds: the command starts for every well-formed address, and the URL leads to the server exactly in the other cases; an address without port is refused.", "quantifier": "all hosts, ports and TLS settings", "why_tests_cant": "A test tries a few addresses; that the base URL is right exactly for the others is about all of them.", "anchors": ["cmd/appdash/serve_cmd.go:ServeCmd.urlOrDefault", "traceapp/app.go:New"]}
{"id": "C114", "title": "The web application can be served under a path", "statement": "If New is given the absolute base URL under which the application is served, for example https://mysite.com/appdash, then the scripts and styles that pages refer to can be loaded and the links to traces work. This is FALSE of the code, whether the path is removed by a proxy or handled by a subrouter, and with or without a slash at the end. What holds, exactly: scripts and styles load if and only if there is no subrouter and the base URL's path is what the proxy removes followed by a slash; links work if and only if no proxy removes anything; Import JSON works if and only if there is neither; so both work only at the root of a host, where they do.", "quantifier": "all paths, proxies, subrouters, file names and trace IDs", "why_tests_cant": "A test tries one deployment; that none works under a path is about all of them.", "anchors": ["traceapp/app.go:New", "traceapp/router.go:NewRouter", "traceapp/router.go:URLToTrace", "traceapp/tmpl/data/layout.html"]}
{"id": "C115", "title": "A distributed program is shown as the tree of its requests", "statement": "A request without span headers reaches a service that uses the httptrace middleware; its handler calls other such services through the httptrace transport, theirs call others, and so on to any depth; calls may fail, and handlers may record spans of their own. If the generated IDs differ and a MemoryStore has received what all services and clients sent to their collectors, in any order and mixed with other traces, then Trace returns exactly the tree of these requests, calls and spans, and UnmarshalEvents of each span's annotations returns the events of the request (status, length, route, user, times), call or recording that it stands for.", "quantifier": "all trees of requests, headers, handlers, responses, orders of arrival", "why_tests_cant": "A test runs one or two services; that the pieces recorded by different processes always form the right tree is about all call trees and orders of arrival.", "anchors": ["httptrace/server.go:Middleware", "httptrace/client.go:Transport.RoundTrip", "httptrace/header.go:GetSpanID", "store.go:MemoryStore.Trace", "event.go:UnmarshalEvents"]}
{"id": "C116", "title": "Stores show the annotations that were passed to them", "statement": "What a MemoryStore shows for a span are the annotations that were passed to Collect for it, as they were when they were passed, whatever the program does afterwards with its own slices; in particular, events recorded on a Recorder after Finish change nothing. This is FALSE of the code: Collect keeps the slice it is given and appends to it, and so do ChunkedCollector and Recorder, so that an event recorded after Finish can replace an annotation that another Recorder has sent for the same span. What holds: for programs that leave slices alone once they have passed them, with any number of slices, stores and chunked collectors, everything shown is as if each call had been given its own copy.", "quantifier": "all programs with any number of slices, capacities, stores and chunked collectors, in any order", "why_tests_cant": "Whether append writes in place depends on capacities that Go chooses; a test sees one choice and one order.", "anchors": ["store.go:MemoryStore.Collect", "collector.go:ChunkedCollector.Collect", "collector.go:ChunkedCollector.Flush", "recorder.go:Recorder.Event", "recorder.go:Recorder.Finish"]}
{"id": "C117", "title": "Every store of a MultiStore shows what was passed", "statement": "Each store under a MultiStore shows the annotations that were passed to its Collect, although all of them are given the same slice and append to it. Goroutines may use the MultiStore at the same time. This is FALSE of the code: with two MemoryStores and overlapping calls for the same span, the stores write into the same array, and one of them loses an annotation and shows another one twice. What holds: if the calls come one after another, every store shows exactly what it was passed, for any number of stores, also if some of them delete traces meanwhile.", "quantifier": "all numbers of stores, all sequences of calls, all capacities, all interleavings", "why_tests_cant": "It depends on capacities and on which goroutine comes between two stores of a call; a test sees one schedule.", "anchors": ["multi.go:multiStore.Collect", "store.go:MemoryStore.Collect"]}
{"id": "C118", "title": "A ChunkedCollector passes annotations on in bounded time", "statement": "Nobody has to call Flush: after MinInterval, all queued collections are passed to the underlying collector. This is FALSE of the code as documented, because the interval begins only when the running flush has ended, and without FlushTimeout there is no bound at all. What holds, if a call of the underlying collector takes at most D and a goroutine that can go on does so within a delay: a flush with a time-out returns within FlushTimeout + D however many entries it has, automatic flushes begin at least MinInterval apart, and everything accepted by Collect has been passed on, or dropped with an error, after the time of a running flush, MinInterval and another flush, unless the collector has been stopped; time can always go on.", "quantifier": "all settings, all sequences of calls, all interleavings, all durations within the bounds", "why_tests_cant": "A test waits for one flush; a bound for all queues, schedules and durations cannot be tested.", "anchors": ["collector.go:ChunkedCollector.start", "collector.go:ChunkedCollector.Flush", "collector.go:ChunkedCollector.Collect", "collector.go:NewChunkedCollector"]}
{"id": "C119", "title": "A program traced with OpenTracing is shown as the tree of its spans", "statement": "A program finishes spans made by an OpenTracing tracer, from any number of goroutines at once, and the tracer's Recorder writes to a MemoryStore, directly or through a ChunkedCollector whose flushes do not overlap and that has handed everything on. When all calls have returned, and the collector returned no error, Trace returns the tree of the program's spans, and the annotations of each span are a record of it: its name, its logs, its tags, its baggage and its times, whatever their contents; the name and the times can be read back. Of a trace that is not sampled the store has nothing.", "quantifier": "all programs, span trees, tags, logs, baggage, times, numbers of goroutines, interleavings and settings of the collector", "why_tests_cant": "Goroutines mix their calls to the collector in any order; a test sees one order and one tree.", "anchors": ["opentracing/recorder.go:Recorder.RecordSpan", "opentracing/tracer.go:NewTracer", "store.go:MemoryStore.Trace", "collector.go:ChunkedCollector.Flush"]}
{"id": "C120", "title": "All logs of an OpenTracing span are shown", "statement": "UnmarshalEvents of the annotations of a span recorded by the OpenTracing recorder gives a log event, with message and time, for every log of the span. This is FALSE of the code: with several logs, every log event has the message and the time of the last one, because all logs use the same annotation keys. What holds, if no tag or baggage item has one of the keys Name, Msg, Time, _schema:...: the events are the name, as many log events as the span has logs, all like the last log, and the times; a span with one log is shown correctly. A tag with such a key changes the events.", "quantifier": "all spans with any number of logs, tags and baggage items", "why_tests_cant": "A test with one log passes; that all but the last are lost is about all numbers of logs, and that nothing else is lost about all tags.", "anchors": ["opentracing/recorder.go:Recorder.RecordSpan", "event.go:UnmarshalEvents", "event.go:LogWithTimestamp"]}
{"id": "C121", "title": "A ChunkedCollector keeps the order of a span's annotations", "statement": "The underlying collector gets the annotations of each span in the order in which they were passed to Collect. (Readers of events use the last of several annotations with the same key, the name of a span is the first Name.) This is FALSE of the code: when Flush is called while another flush is running, the later one may overtake it. What holds: if flushes do not overlap, in particular if nobody but the collector itself calls Flush, the order is kept, also across flushes and with dropped queues; and when all has been handed on and nothing dropped, each span's annotations are exactly those collected, in order.", "quantifier": "all sequences of calls, all interleavings, all settings", "why_tests_cant": "The order depends on how goroutines interleave; a test sees one schedule.", "anchors": ["collector.go:ChunkedCollector.Flush", "collector.go:ChunkedCollector.Collect", "collector.go:ChunkedCollector.start"]}
{"id": "C122", "title": "A program of several processes is shown by the collector server", "statement": "Several processes handle HTTP requests of one trace (with the middleware and the transport of httptrace), or finish spans of one trace with OpenTracing tracers. Each process sends to one collector server through its own RemoteCollector, and other clients use the server at the same time. When all calls have returned without an error, each packet arrived once, and the server has read all it was sent, Trace of its MemoryStore returns the tree of the program's spans with the recorded events of each. For OpenTracing, the collectors needed no second connection (see the next property).", "quantifier": "all numbers of processes, all programs and span trees, all interleavings of clients and handlers, all ways in which bytes arrive", "why_tests_cant": "A test has two processes and one order of arrival.", "anchors": ["collector.go:RemoteCollector.Collect", "collector.go:CollectorServer.handleConn", "httptrace/server.go:Middleware", "httptrace/client.go:Transport.RoundTrip", "opentracing/recorder.go:Recorder.RecordSpan", "store.go:MemoryStore.Trace"]}
{"id": "C123", "title": "The server stores what a RemoteCollector sends in the order of the calls", "statement": "The store of a collector server gets the collections of a RemoteCollector in the order of its Collect calls. This is FALSE of the code: after a broken connection the collector dials again, and the server reads both connections in goroutines of their own, so later collections may be stored before earlier ones that were accepted (the order matters to readers of a span with several annotations of the same key). What holds: with one connection the order is kept.", "quantifier": "all sequences of calls from any number of goroutines, all network failures, all interleavings of the server's goroutines", "why_tests_cant": "A test would have to hold back the first connection's goroutine; the order is a matter of scheduling.", "anchors": ["collector.go:RemoteCollector.collect", "collector.go:RemoteCollector.connect", "collector.go:CollectorServer.Start", "collector.go:CollectorServer.handleConn"]}
{"id": "C124", "title": "Every event type that can be registered can be read", "statement": "If RegisterEvent accepts an event, UnmarshalEvents of annotations with its schema does not panic (for types whose fields do not make reading panic, see C104). This is FALSE of the code: RegisterEvent accepts a pointer to an event, and then UnmarshalEvents panics on every span on which such an event was recorded. What holds: reading panics if and only if the annotations have the schema of an event that was registered as a pointer.", "quantifier": "all sequences of registrations, all event types without sequences, interfaces and the like, all annotations", "why_tests_cant": "A test registers one kind of event.", "anchors": ["event.go:RegisterEvent", "event.go:UnmarshalEvents", "event.go:UnmarshalEvent"]}
{"id": "C125", "title": "Packets of newer clients are read", "statement": "A packet that has further fields, which this version does not know, is stored by the collector server exactly like the packet without these fields: fields of any type of the protocol buffer encoding, groups within groups included, before, between and after the known fields, in the packet itself, in its span ID and in its annotations. The packets after it are not affected.", "quantifier": "all packets within the size limit, all unknown fields, any number of packets", "why_tests_cant": "A test has one unknown field; all kinds at all places cannot be enumerated.", "anchors": ["internal/wire/collector.proto", "internal/wire/collector.pb.go:CollectPacket", "collector.go:CollectorServer.handleConn"]}
{"id": "C126", "title": "The collector server takes exactly what the bytes say", "statement": "Whatever bytes a connection delivers, the server's collector receives one call for each complete message at the beginning of these bytes, in order, with just the span ID and the annotations that the message states according to the protocol buffer encoding and collector.proto (repeated fields: the last counts), and nothing else; it stops at the first bytes that are no such message, or when the collector returns an error. Every key and value received is a contiguous part of the message. The bytes a RemoteCollector sends are messages that say what was given to Collect.", "quantifier": "all byte streams, from any client, all collectors", "why_tests_cant": "The streams are arbitrary; a wrong length check shows only for messages that are cut in the wrong place.", "anchors": ["collector.go:CollectorServer.handleConn", "internal/wire/collector.proto", "internal/wire/collector.pb.go:CollectPacket", "span.go:spanIDFromWire", "span.go:annotationsFromWire"]}
{"id": "C127", "title": "Every request that reaches a handler is recorded", "statement": "A request that the HTTP middleware passes on to the next handler is recorded in the end, as a span with its ID and an HTTP server event. This is FALSE of the code when the handler panics: the recorder is made only after the handler has returned, so nothing is recorded of just these requests (the spans that the handler recorded before remain, below a span that is missing). What holds: the request is recorded if and only if the handler does not panic, the middleware does not panic by itself once the handler was called, and it does not swallow the handler's panic.", "quantifier": "all requests, handlers, configurations and collectors", "why_tests_cant": "Handlers and requests are arbitrary; tests use handlers that return.", "anchors": ["httptrace/server.go:Middleware"]}
{"id": "C128", "title": "The embedded files read like files", "statement": "A file opened from tmpl.Data answers every sequence of Seek and Read calls, with positions that are not negative, like a file: a Read returns the bytes at the position, at least one if there are any, and an error only at the end. This is FALSE of the code: a Read beyond the end of the file moves the decompressor but not the position noted for it, so that later reads within the file miss their bytes. What holds: as long as no Read is attempted beyond the end all answers are right; reading to the end, with any buffer sizes, gives the contents; reading a directory in portions of any sizes lists each entry once, in order.", "quantifier": "all contents, all sequences of calls with all offsets and buffer sizes, all portions in which the decompressor delivers", "why_tests_cant": "Sequences of calls are unbounded; the error shows only after a particular sequence of three calls.", "anchors": ["traceapp/tmpl/data_vfsdata.go:_vfsgen_compressedFile.Read", "traceapp/tmpl/data_vfsdata.go:_vfsgen_compressedFile.Seek", "traceapp/tmpl/data_vfsdata.go:_vfsgen_dir.Readdir", "traceapp/tmpl.go:parseHTMLTemplates"]}
{"id": "C129", "title": "Programs in Go and Python are shown as one tree", "statement": "The spans of a trace are collected in any number of processes, in Go with a RemoteCollector, in Python over a socket or with Twisted. When the server has handled what they sent, its store shows the tree of the program's spans with all their annotations. The annotations of a span that were all collected in one process over one connection are shown in the order collected; if they are events of the Python client, of different kinds and not both a message and a log, Go's UnmarshalEvents returns exactly these events in this order.", "quantifier": "every causal tree of spans, every number of processes of the three kinds, every schedule of their calls and sends, every interleaving at the server, every order of Python dictionaries", "why_tests_cant": "All schedules of several processes in two languages.", "anchors": ["python/appdash/sockcollector.py:RemoteCollector", "python/appdash/twcollector.py:RemoteCollectorFactory", "python/appdash/event.py:MarshalEvent", "collector.go:CollectorServer", "store.go:MemoryStore", "event.go:UnmarshalEvents"]}
{"id": "C130", "title": "Uploads are read as JSON, as all of it and as nothing else", "statement": "A request body is taken by the upload page exactly if it is, apart from white space around it, a text of the grammar of JSON (with strings that need not be UTF-8 and may name single surrogates, both of which become U+FFFD) and its value stands for a list of traces: null or an array of null or objects, whose members ID, Annotations and Sub are found by name without regard to case (the long s and the Kelvin sign count as letters), where other members are ignored, a member given again changes what the earlier one has made (the parts of an ID one by one; a list element by element, each keeping what is not mentioned, and elements that a shorter list left behind come back in a longer one; base64, an empty array or null starts anew; null leaves an ID, a key, an annotation or a byte as it was), IDs are hexadecimal strings, integers below 2^64 or null, and values are base64, arrays of bytes or null. Then these traces are stored; any other body is refused and changes nothing. No text has two meanings. A permalink's trace is read by the same rules. A string survives the way through JSON exactly if it is UTF-8.", "quantifier": "all request bodies, all JSON values, all stores", "why_tests_cant": "there are infinitely many texts; the accepted and the refused ones can only be described by a grammar", "anchors": ["traceapp/app.go:App.serveTraceUpload", "traceapp/app.go:App.serveTrace", "id.go:ID.UnmarshalJSON", "trace.go:Trace", "span.go:Span"]}
{"id": "C131", "title": "What is shown of a trace that is collected on both sides of a restart", "statement": "Take a store, save it with Write, read it back into a new MemoryStore with ReadFrom and go on with Collect and Delete. Of a trace that was in the store and is not deleted afterwards, Trace shows each of the following spans once and no others: the root; every span whose parent was never collected; and every span whose parent is shown, except that a span first collected after the restart is not shown below a span collected before it, and neither is the span that was the root at the save. Spans from before the restart have the annotations they had then (later ones are lost), spans from after it have all of their own. Each span is below its declared parent, or below the root if that was never collected; the parentless span that came last is the root. If no span from before the restart is collected again or gets a new child, and the root of the save has no collected parent, then the same spans are shown with the same annotations as without the restart.", "quantifier": "every history before the save and every history after it", "why_tests_cant": "A test restarts once, at one point of one history; the claim is about every point of every history, with orphans, adoptions, changes of the root and cycles on either side", "anchors": ["store.go: MemoryStore.Write, MemoryStore.ReadFrom, MemoryStore.collectNoLock, MemoryStore.insert, MemoryStore.reattachChildren, MemoryStore.traceNoLock"]}
{"id": "C132", "title": "Every request to the web application gets its answer", "statement": "Every request is answered with exactly one of: an HTML page, JSON data, an empty response for an upload that was stored, a redirect (exactly if the path is not clean), 404 page not found (exactly if there is no route for method and path), 404 Dashboard is disabled (only without an Aggregator), or a failure with status 500 and the text of the error; the status, the header and the body are those of this answer alone, even if the handler failed or panicked half way. Only a POST to /traces/upload and a GET below /traces/ with a permalink change the store. The page of a trace, span or profile, the list, the start page and the dashboard are what the template makes of the stored data that the URL names; a trace posted to another server is shown there by the same page. If any template file is bad when they are loaded, no page is shown. With BasicAuth, requests without exactly the configured credentials get 401 and change nothing", "quantifier": "all requests (method, path, query, header, body), stores, template files, templates and errors", "why_tests_cant": "Requests and stores are unbounded; the handlers, the router and the writer are tested apart if at all.", "anchors": ["traceapp/app.go:ServeHTTP", "traceapp/app.go:serveTrace", "traceapp/app.go:serveTraces", "traceapp/app.go:serveTraceUpload", "traceapp/tmpl.go:renderTemplate", "traceapp/tmpl.go:parseHTMLTemplates", "traceapp/handler.go", "traceapp/dashboard.go:serveDashboard", "traceapp/prof.go:profile", "cmd/appdash/serve_cmd.go:Execute"]}
{"id": "C133", "title": "Traces that are not stored are answered with 404", "statement": "A GET for the page of a trace or span that is not in the store is answered with the status 404. This is FALSE of the code: it is answered with status 500 and the text of the store's error. Proved: it is answered with just that, and the store does not change", "quantifier": "all stores, trace and span IDs and templates", "why_tests_cant": "IDs and stores are unbounded.", "anchors": ["traceapp/app.go:serveTrace", "traceapp/handler.go", "store.go:ErrTraceNotFound"]}
{"id": "C134", "title": "Responses do not depend on earlier requests", "statement": "The response to a request depends on what is stored and on the template files as they are now, not on what was requested before. This is FALSE of the code if ReloadTemplates is not set: a request at which a template file could not be read leaves an empty set of templates, with which all later pages fail for ever. Proved if ReloadTemplates is set, or if the files have always been the same and good", "quantifier": "all histories of requests, with template files that may change between them", "why_tests_cant": "Histories are unbounded; the failure needs an error in the first request and a good file later.", "anchors": ["traceapp/tmpl.go:renderTemplate", "traceapp/tmpl.go:parseHTMLTemplates", "traceapp/tmpl.go:ReloadTemplates"]}
{"id": "C135", "title": "Times are written and read as RFC 3339", "statement": "The text that is recorded for a time, of any event, is the shortest RFC 3339 text (date-time with capital letters, nanoseconds at most) that denotes it, for years up to 9999 and zones less than a day off. Whoever records a time, the Go library reads a text as a time exactly if it is such a text for it, where the hour may also have one digit and the zone may be any four digits; in particular every RFC 3339 text is read as the time that it denotes, and as no other", "quantifier": "all times (date, time of day, nanosecond, zone) and all texts", "why_tests_cant": "Dates, fractions and zones are too many to enumerate; texts from other clients are arbitrary.", "anchors": ["reflect.go:flattenValue", "reflect.go:parseValueToPtr", "python/appdash/event.py:timeString"]}
{"id": "C136", "title": "Every RFC 3339 date-time is understood", "statement": "A text that is a date-time according to RFC 3339 can be read as the value of a time field of an event. This is FALSE of the code: texts with a leap second (23:59:60) or with a small t or z, which RFC 3339 allows, are not read. Proved for all others whose fraction has at most nine digits", "quantifier": "all texts of the grammar", "why_tests_cant": "The grammar has unboundedly many texts.", "anchors": ["reflect.go:parseValueToPtr"]}
{"id": "C137", "title": "The browser shows the spans that the processes of a program collected", "statement": "The spans of a trace are collected in any number of processes in Go and Python and the server has handled what they sent. A browser that then asks the web application for the URL of the trace gets the page that the template makes of the tree of the program's spans with all their annotations, with a JSON text of just this tree in its data; an error is shown instead only if the events of some span cannot be read. For the profile URL it gets the profile of this tree. The requests change nothing in the store", "quantifier": "every causal tree of spans, every number of processes and schedule of their calls and sends, every interleaving at the server, all templates and headers of the request", "why_tests_cant": "It spans processes in two languages, the network, the store and the web application; all schedules and programs are too many to test.", "anchors": ["collector.go:RemoteCollector", "collector.go:CollectorServer", "python/appdash/sockcollector.py:RemoteCollector", "python/appdash/twcollector.py:RemoteCollectorFactory", "store.go:MemoryStore", "traceapp/app.go:serveTrace", "traceapp/tmpl.go:renderTemplate"]}
{"id": "C138", "title": "Fields of events are read as their annotations say", "statement": "The text of a field of an event, in the last annotation with its name, may come from any client. If an event of scalar fields is read without error from annotations that have all its fields, then every field has the value that its text denotes: an integer in the range of its type, the nearest floating-point number of its width, a number of milliseconds, a truth value, a string, an RFC 3339 time. This is FALSE of the code: 300 is read into an int8 as 44, numbers for a float64 are rounded to float32, and a text that cannot be read makes the field and all fields with later names keep their values, without error. Proved: exactly which texts are read and as what; that fields are read in the order of names up to the first text that cannot be read; that all fields have the values denoted by the texts if none is a float64 or a duration; and that the texts written for floating-point numbers denote them", "quantifier": "all event types of scalar fields, all texts (with signs, points, exponents, any number of digits), all other annotations, all previous values", "why_tests_cant": "Numerals are unbounded and rounding has infinitely many boundary cases.", "anchors": ["reflect.go:parseValueToPtr", "reflect.go:unflattenValue", "event.go:UnmarshalEvent"]}
{"id": "C139", "title": "Reading events takes memory in proportion to the annotations", "statement": "What UnmarshalEvents makes of a span's annotations, which may come from any client, takes memory in proportion to the size of the annotations (counting the bytes of texts and one for every annotation, event, map entry and element). This is FALSE of the code: an annotation that names the schema of an event makes another copy of the event, so that n annotations and a text of n bytes take n times n bytes; and a short annotation whose key ends in a large index makes a slice of that length. Proved: one event without slices takes at most the size of the annotations for each of its fields; the events of the library take at most fourteen times the size of the annotations for each annotation that names a schema; and memory is proportional, with the factor 112, if no schema is named twice", "quantifier": "all annotations, of any number and length; all event types without slices", "why_tests_cant": "A test measures some inputs; that no input is worse needs a proof for all of them.", "anchors": ["event.go:UnmarshalEvents", "event.go:UnmarshalEvent", "span.go:Annotations.schemas", "span.go:Annotations.StringMap", "reflect.go:unflattenValue"]}
{"id": "C140", "title": "The text of a list of annotations shows them all", "statement": "Annotations.String writes a line for each annotation, in order, made of the key, an equals sign and the value as an interpreted string literal of Go, which stands for the bytes of the value and for nothing else, whatever they are, and has no line feed in it. Printable ASCII without quotes and backslashes appears as it is. The text determines the annotations. This last is FALSE of the code: keys are not quoted, so that a key with a line feed in it can imitate other annotations, and nil values look like empty ones. Proved: where no key has a line feed, equal texts show the same keys and bytes in the same order", "quantifier": "all lists of annotations with all keys and values, and all tables of printable characters beyond ASCII", "why_tests_cant": "Keys and values are unbounded byte strings; ambiguities show only for particular ones.", "anchors": ["span.go:Annotations.String"]}
{"id": "C141", "title": "The buttons of the timeline sort by what they say", "statement": "On a trace's page, whatever buttons were clicked before, an odd number of clicks in a row on Sort By start time, end time, duration or label puts the same items in the order of that button, an even number in the opposite order, and the visible ones are drawn in it. Items are in the order of when they start, or end. This is FALSE of the code for items with several timespans: the script looks only at the first, which is the event that was recorded first, so a root span that recorded a query before its own time is placed by the query. Proved for the times of the first timespans and the labels, and in full if spans without a parent have at most one timed event", "quantifier": "all traces, browsers whose sort function does what ECMAScript says, and sequences of clicks", "why_tests_cant": "Traces and sequences of clicks are unbounded; the script is not run by the Go tests.", "anchors": ["traceapp/tmpl/data/trace.html:lastSort", "traceapp/tmpl/data/trace.html:toggleSortStartTime", "traceapp/tmpl/data/trace.html:toggleSortEndTime", "traceapp/tmpl/data/trace.html:toggleSortDuration", "traceapp/tmpl/data/trace.html:toggleSortLabel", "traceapp/vis.go:d3timeline"]}
{"id": "C142", "title": "Aggregate View shows the selected traces", "statement": "On the list of traces, after any clicks on boxes and on Toggle Selection, Aggregate View leads to the aggregate of the traces whose boxes are ticked, as far as they are still stored, and Export Selected offers just these. This is FALSE of the code for Aggregate View: if no box is ticked, all traces are aggregated, since an empty selection counts as none; if all are ticked, traces that were added since the page was loaded are aggregated as well. Proved if some boxes are ticked but not all, and if all are ticked and no trace was added; otherwise all stored traces are aggregated", "quantifier": "all histories of the store before and after the page is loaded, orders of its traces, sequences of clicks", "why_tests_cant": "Histories and sequences of clicks are unbounded; the script is not run by the Go tests.", "anchors": ["traceapp/tmpl/data/traces.html:selected", "traceapp/tmpl/data/traces.html:aggregate-view", "traceapp/tmpl/data/traces.html:toggle-selection", "traceapp/app.go:App.serveAggregate", "traceapp/app.go:App.serveTraces"]}
{"id": "C143", "title": "The menu View Mode sets the view mode", "statement": "A choice from the menu of the aggregate view leads to the page with this view mode, the last choice counts, and the selection of traces and all other settings of the query stay as they were. This is FALSE of the code: in an address with a # the setting is added after it, where the server does not see it. Proved for addresses without # and with one question mark at most, in which the view mode is not set in unusual ways, such as all addresses that the application itself makes", "quantifier": "all addresses, sequences of choices, stores and selections", "why_tests_cant": "Addresses and sequences of choices are unbounded; the script is not run by the Go tests.", "anchors": ["traceapp/tmpl/data/aggregate.html:updateQueryStringParameter", "traceapp/tmpl/data/aggregate.html:viewMode", "traceapp/app.go:App.serveAggregate", "traceapp/aggregate.go:parseAggMode"]}
{"id": "C144", "title": "The demo shows the trace of a visit", "statement": "appdash demo prints and uses URLs that lead to its servers, for all values of its address options. A visit to the page that makes API calls, all of which arrive, is shown as a trace: the request, and below it the three calls, named after the demo's host, and the three requests, named after their paths, with nothing below them; the page has a link that leads to the page of just this trace. This is FALSE of the code for addresses with a host: the host is appended to localhost. Proved for addresses without a host, and the trace and the link for all URLs", "quantifier": "all address options, requests, generated IDs, outcomes of calls, orders of arrival at the store and other traces in it", "why_tests_cant": "Interleavings and histories are unbounded; the error shows only for addresses other than the defaults.", "anchors": ["cmd/appdash/example_app.go:DemoCmd.Execute", "cmd/appdash/example_app.go:demoApp.ServeHTTP"]}
{"id": "C145", "title": "A trace read while spans arrive is shown as it was at one moment", "statement": "A goroutine that fetches a trace from the memory store and walks it, while other goroutines collect spans and delete traces, sees it as it was at one moment from then on, and loses no span that the trace has before and after. This is FALSE of the code: Trace returns pointers to the nodes that the store goes on to use, so a span can be shown twice, under the root and under its parent that has just been collected, spans can be missing if the root is collected meanwhile, and reading can go on for ever if spans name each other as parents. Proved: what is read was collected for the trace, with the parent shown and the annotations of some moment, and is below its parent if this one had been collected; no span is lost while the root stays; only annotations differ while no new spans arrive; calls for other traces and deletions have no effect", "quantifier": "all histories of calls before, all schedules of calls during the walk", "why_tests_cant": "Schedules are unbounded, and the wrong ones need a call between two steps of a walk.", "anchors": ["store.go:MemoryStore.Trace", "store.go:MemoryStore.Collect", "store.go:MemoryStore.reattachChildren", "trace.go:Trace"]}
{"id": "C146", "title": "Exporting a trace never panics while spans arrive", "statement": "Showing a trace, which encodes it as JSON, does not panic, whatever other goroutines collect meanwhile. This is FALSE of the code: if the parent of a span that was provisionally below the root is collected while the root's children are encoded, the slice of children becomes shorter and encoding/json reads beyond it. Proved if only annotations of known spans, spans of other traces and deletions of other traces come in between, and then the export is the trace as it was before or with some of the new annotations", "quantifier": "all histories of calls before, all schedules of calls during the export", "why_tests_cant": "The panic needs a call between two steps of the encoder.", "anchors": ["traceapp/app.go:App.serveTrace", "store.go:MemoryStore.reattachChildren", "store.go:MemoryStore.Trace"]}
{"id": "C147", "title": "The heading of the dashboard tells what its table is about", "statement": "The heading of the dashboard names a range of hours, and once nothing is to be expected any more the table is about the spans of just these hours, however the slider was moved. This is FALSE of the code: the positions of the slider are hours counted from three days ago, and the heading calls them hours ago, so that \"0-24 hours ago\" is the time from 48 to 72 hours ago; and an answer that arrives late replaces that of a newer request. Proved: for all positions which hours are asked for, that the heading is right exactly if the positions add up to 72, that the heading always shows the slider's positions, and that the table is about them if requests do not fail and answers arrive in order", "quantifier": "all positions of the slider and all sequences of moves, timeouts and answers", "why_tests_cant": "Sequences of events and the order of answers are unbounded.", "anchors": ["traceapp/tmpl/data/dashboard.html", "traceapp/dashboard.go:serveDashboardData"]}
{"id": "C148", "title": "The labels of the timeline are the names of the spans", "statement": "The label of a span in the timeline is its name, or if it is long its beginning with three dots. This is FALSE of the code: the script takes the labels as HTML and sets them as text, so that a span a&b is labelled a&amp;b, and once more escaped for each further timespan of the span. Proved: names without &, <, > and no-break spaces of at most 13 characters are shown as they are, longer ones as their first 13 characters with three dots; no label is longer than 16 characters; a name of at most 13 characters with one of these characters is never shown as it is", "quantifier": "all names and all numbers of timespans of a span", "why_tests_cant": "Names are unbounded.", "anchors": ["traceapp/tmpl/data/trace.html"]}
{"id": "C149", "title": "One view of the trace is displayed", "statement": "On the page of a trace, whatever buttons were clicked before, exactly one of the views (data, verbose, profile) is displayed: that of the last button clicked, and at first the data", "quantifier": "all sequences of clicks", "why_tests_cant": "Sequences of clicks are unbounded.", "anchors": ["traceapp/tmpl/data/trace.html"]}
{"id": "C150", "title": "What Export Selected shows can be imported", "statement": "On the list of traces, whatever a user has done there before, Export Selected shows a menu with a JSON text of just the traces whose boxes are ticked. This is FALSE of the code if no box is ticked: the menu then shows the text of an earlier export. Proved if some box is ticked. At first no menu is shown; the button for imports opens or closes its menu, Export Selected opens the other, Cancel closes the menu it is in, and the two are never shown together. Import JSON posts every text that is not just white space, hence every JSON text; so the text that Export Selected shows, imported into another application, makes its store return each of the ticked traces that it did not have exactly as listed, and changes none of the others", "quantifier": "all lists of traces, all sequences of clicks and inputs, all stores on both sides", "why_tests_cant": "Sequences of actions, traces and stores are unbounded.", "anchors": ["traceapp/tmpl/data/traces.html", "traceapp/tmpl/data/layout.html", "traceapp/app.go:serveTraceUpload"]}
{"id": "C151", "title": "The menu of the timeline acts on the span that was right-clicked", "statement": "On the page of a trace, a right click on a timespan opens a menu that tells the name of its span. However the timeline was sorted and filtered and spans shown or hidden, before and since, Show Children and Hide Children and the filters of the menu change which of the spans below that span are drawn, and of no others; a click on a timespan leads to the page of its span; the script does not fail and no item is lost. This is FALSE of the code as to the name: the menu of a span that takes less than a millisecond is headed by nothing, or if it has no parent by the schema of an event. Proved otherwise: the heading is name and duration. The menu acts on the right spans in traces without a span with ID zero, in which the declared parents of all spans but the root are in the trace, and that of the root is not (see C96 for the others), and on the pages of all spans below the root", "quantifier": "all stored traces, all sequences of clicks and filter texts, all timespans", "why_tests_cant": "Sequences of clicks are unbounded, and the row of a span changes with each of them.", "anchors": ["traceapp/tmpl/data/trace.html", "traceapp/vis.go:d3timelineInner"]}
{"id": "C152", "title": "A store that deletes old traces shows the whole trace of a program, or nothing of it", "statement": "If the spans of a program's trace are collected in a RecentStore, then whenever nothing is under way Trace returns the tree of all these spans with all their annotations, or that there is no such trace. This is FALSE of the code: the age of a trace is counted from the first Collect call for it, so a trace that lasts longer than MinEvictAge is deleted while the program still runs, and afterwards the spans that ended late are shown without those that ended early, as if they were the whole trace. Proved: as long as no eviction was decided more than MinEvictAge after the first call for the trace, it is shown in full, with the events recorded for each span, whatever other traces are collected and evicted; and if all its calls were made and passed on until then, it is shown in full until it is deleted, and then not at all. The same on the page of the trace in appdash serve, for traces that were not in the store file", "quantifier": "all trees of spans, all interleavings of Collect calls for this and other traces and of evictions, all clock readings, all restarts before", "why_tests_cant": "Interleavings, trees and times are unbounded.", "anchors": ["store.go:RecentStore.Collect", "store.go:RecentStore.evictBefore", "cmd/appdash/serve_cmd.go:Execute"]}
{"id": "C153", "title": "The example web application shows the trace of a visit", "statement": "A visit to the first page of examples/cmd/webapp gives a page with a link that leads to the server of the web application, and there to the page of the trace of this very visit: the request, named after its path, and below it the three calls, named after the host, and for each call that arrived the request to the endpoint, named after its path, with nothing below them; whatever other requests are handled meanwhile, and in whatever order the spans are collected, as long as no eviction is decided more than 20 seconds after the first span of the visit was collected", "quantifier": "all visits, all orders in which spans are collected, all other traces, all outcomes of the calls", "why_tests_cant": "Requests, interleavings and histories of the store are unbounded.", "anchors": ["examples/cmd/webapp/main.go:Home", "examples/cmd/webapp/main.go:Endpoint", "examples/cmd/webapp/main.go:main"]}
{"id": "C154", "title": "The OpenTracing example shows the trace of a visit and its errors", "statement": "A visit to the first page of examples/cmd/webapp-opentracing is shown as a trace of its span, named after the path, and below it just the spans of the requests to the endpoint that arrived with the context, named after theirs, whatever else the tracer records at the same time, as long as no eviction is decided more than 20 seconds after the first span of the visit was collected. The span of the visit has the host and address of the request, each of its header fields, the user and the status of the last response; the span of a request to the endpoint the host, the method, each header field and the baggage it carried. The page links to the list that has the trace. Every error of a call is among the events of the visit: this is FALSE of the code if two calls fail, because all log events then have the last error; proved if at most one call fails", "quantifier": "all visits, headers, outcomes of the calls, interleavings of the spans, histories of the store", "why_tests_cant": "Requests, headers, interleavings and histories are unbounded.", "anchors": ["examples/cmd/webapp-opentracing/main.go:Home", "examples/cmd/webapp-opentracing/main.go:Endpoint", "examples/cmd/webapp-opentracing/main.go:addHeaderTags", "opentracing/tracer.go:DefaultOptions"]}
{"id": "C155", "title": "What a snapshot holds survives crashes", "statement": "Once PersistEvery has replaced the store file, every trace that was in the store when Write was called is shown as it was then, by every process that is started later, until spans of the trace are collected or it is deleted; whatever crashes, failed writes and restarts there are, and whatever else is collected and written meanwhile. A trace that had been deleted before does not come back. If no process runs, one can be started. (Empty annotation values may become nil. What was collected since the last replacement of the file is lost in a crash.)", "quantifier": "every execution with any number of crashes at any points, restarts, failures of steps and store calls", "why_tests_cant": "Executions are unbounded and crashes can happen between any two steps.", "anchors": ["store.go:PersistEvery", "store.go:MemoryStore.Write", "store.go:MemoryStore.ReadFrom", "cmd/appdash/serve_cmd.go"]}
{"id": "C156", "title": "The trace of a program survives the crashes of the server", "statement": "Suppose that all calls of a program (its recorders, or its HTTP services) have reached a server that saves its store to a file, in any order and mixed with the calls of any other traces, and that afterwards one periodic write of that server ran to its end, renaming the file. Then every process that is later started on the file, after any number of crashes at any points, including in the middle of later writes, and whatever other traces it received, shows the tree of exactly the program's spans, each with exactly its recorded events.", "quantifier": "all trees of spans and recordings of library events (resp. all trees of HTTP services), all delivery orders, all crash points and all other calls before, during and after", "why_tests_cant": "a test crashes at chosen points and with one small trace; the claim joins the recorders, the store, the file and all later processes for every schedule of crashes", "anchors": ["store.go: PersistEvery, MemoryStore.Write, MemoryStore.ReadFrom, MemoryStore.Collect", "cmd/appdash/serve_cmd.go: ServeCmd.Execute", "recorder.go: Recorder", "httptrace/client.go: Transport.RoundTrip", "httptrace/server.go: Middleware"]}
{"id": "C157", "title": "The Python example programs show their trace", "statement": "When example_socket.py or example_twisted.py of the Python client has run and the collector server has handled what it sent, in whatever parts the socket took it or however often Twisted flushed, and whatever other clients sent, the server's store shows one trace: a chain of seven spans, each below the one before, the first named Request and the others SQL Query, and Go reads from each span exactly its name, its query with both times and, on every other span, its log.", "quantifier": "all random IDs that are different from each other and not zero, all clock readings, all iteration orders of dictionaries, all splits of the stream, all other clients", "why_tests_cant": "a run has one choice of IDs, one order of fields and one split of the stream", "anchors": ["python/example_socket.py", "python/example_twisted.py", "python/appdash/sockcollector.py: RemoteCollector.collect", "python/appdash/event.py: MarshalEvent", "collector.go: CollectorServer", "event.go: UnmarshalEvents"]}
{"id": "C158", "title": "A Python program traced with OpenTracing is shown as the trees of its spans", "statement": "When a Python process has finished sampled spans of any number of traces with the OpenTracing recorder, which raised no exception, and the collector server has handled what the process sent over its socket, the server's store shows each trace as the tree of its spans. Every span has exactly the annotations of its name, of its times and of its tags. If no tag has the key of one of these, then Go reads exactly the name and the times as events.", "quantifier": "all trees of spans in all numbers of traces, all names, times and string tags, all orders in which spans finish, all iteration orders of dictionaries, all splits of the stream, all other clients", "why_tests_cant": "arbitrary trees, tags and splits; the claim joins the Python recorder, the wire format, the server and Go's event code", "anchors": ["python/appdash/recorder.py: AppdashRecorder.record_span", "python/appdash/sockcollector.py: RemoteCollector.collect", "collector.go: CollectorServer", "store.go: MemoryStore.Collect", "event.go: UnmarshalEvents"]}
{"id": "C159", "title": "The Python OpenTracing example shows its traces with their logs", "statement": "When example_opentracing_socket.py has run and the collector server has handled what it sent, the server's store shows seven traces of a span and its child, with the names, the times and the tags that the program set, and with the logs that the program made.", "quantifier": "all random IDs, all clock readings, all iteration orders of dictionaries, all splits of the stream, all other clients", "why_tests_cant": "a run has one choice of IDs, one order of fields and one split of the stream", "anchors": ["python/example_opentracing_socket.py", "python/appdash/recorder.py: AppdashRecorder.record_span", "collector.go: CollectorServer"]}
{"id": "C160", "title": "What Go and Python programs collected is on the page after crashes of the server", "statement": "The spans of a trace are collected in processes in Go and Python, and the collector server has handled what they sent before a snapshot is written that replaces the file. However often the server's process crashes and is started again after that, every later process shows the tree of the program's spans with all their annotations, where an empty value may have become nil, and Go reads the same events from them. A browser that asks a later process for the URL of the trace gets the page of just this tree, unless the events of a span cannot be read.", "quantifier": "all programs of Go and Python processes, all orders in which their messages arrive, all crash points and restarts before and after the snapshot, all traces of other programs, all template files that parse", "why_tests_cant": "arbitrary trees, splits of the streams and crash points; the claim joins the clients, the wire formats, the server, the store, the file and the web application", "anchors": ["collector.go: CollectorServer", "store.go: PersistEvery, MemoryStore.Write, MemoryStore.ReadFrom", "cmd/appdash/serve_cmd.go", "traceapp/app.go: serveTrace", "python/appdash/sockcollector.py"]}
{"id": "C161", "title": "Each call of a remote collector arrives at most twice, and in order", "statement": "However many goroutines call Collect and Close of one RemoteCollector, and whichever dials and writes fail, the servers that read its connections, in the order in which these were dialled, give their collectors the packets of the calls in the order of the calls: each at most twice, and at least once if Collect returned nil. All packets are within the server's limit. A packet can arrive twice although its call returned nil, and twice although its call returned an error.", "quantifier": "every failure pattern of the network, every sequence of Collect/Close calls of any number of goroutines, every interleaving", "why_tests_cant": "the network can break a connection after any byte, also after the last byte of a packet; tests see few of these patterns", "anchors": ["collector.go: RemoteCollector.Collect, collectAndRetry, collect, connect, Close", "collector.go: CollectorServer.handleConn"]}
{"id": "C162", "title": "A span that is deleted from a memory store is no longer shown", "statement": "When a single span of a memory store is deleted with deleteSubNoLock, the call returns true exactly if the span was collected, no other trace changes, and the trace no longer shows the span nor what is below it, while all other spans are shown as before. If only the annotations are to be deleted, just these are gone.", "quantifier": "all histories of Collect and Delete, all spans of all depths", "why_tests_cant": "arbitrary trees with spans collected in any order; the loop removes from the slice it ranges over", "anchors": ["store.go: MemoryStore.deleteSubNoLock"]}
{"id": "C163", "title": "Memory statistics are printed as tables with aligned columns", "statement": "For all numbers, a report of memory statistics is printed without a panic: a heading and three tables in which every number stands in the row of its name; a size is shown in the largest unit of B, KB, MB and GB that does not exceed it, rounded down; all cells of a column begin at the same place of their lines, with two spaces after the widest one; and all reports of one program have the same layout. A table is printed for all rows, and panics only if there is no row or the rows are not equally long.", "quantifier": "all numbers, all tables of texts, all sequences of reports", "why_tests_cant": "the widths depend on all cells; tests print a few numbers and do not look at the layout", "anchors": ["memstats.go: memStats.fmtBytes, repeat, logf, logColumns, Log"]}
{"id": "C164", "title": "Calls never wait for each other for ever", "statement": "Whatever stores, collectors, recorders and servers a program combines (without a cycle) and however many goroutines call them, also the goroutines that the package starts itself: as long as a call has not returned, some goroutine can go on; the calls that have begun all return after a bounded number of steps, whichever goroutines the scheduler chooses, provided that dialling, reading, writing and other work ends; then no mutex is locked. No goroutine ever waits for a mutex that it holds or unlocks one that it does not hold.", "quantifier": "all acyclic combinations of objects, all numbers of goroutines and calls, all interleavings", "why_tests_cant": "a deadlock needs a particular interleaving of particular calls on particular combinations of objects; the race detector does not find it", "anchors": ["store.go: MemoryStore, RecentStore.Collect, evictBefore, LimitStore.Collect", "multi.go", "collector.go: ChunkedCollector, RemoteCollector, CollectorServer", "recorder.go: Recorder", "id.go: generateID", "traceapp/tmpl.go", "httptrace/client.go: Transport"]}
{"id": "C165", "title": "The logs of servers and remote collectors tell what was received and sent", "statement": "With Trace set, the messages that a collector server logs about a connection tell exactly which packets it received: their spans and, each with the span it belongs to, the keys and values of their annotations, in order. With only Debug set there is one message per packet. With Debug set, a call of RemoteCollector.Collect logs that the span was sent exactly once if it returns nil, and never otherwise.", "quantifier": "all packets of all connections, all outcomes of dialling and writing", "why_tests_cant": "keys and values can hold any bytes, also such that look like other messages", "anchors": ["collector.go: CollectorServer.handleConn", "collector.go: RemoteCollector.collectAndRetry, collect"]}
