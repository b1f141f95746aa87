import Verif.Proofs.Http
import Verif.Properties.Event
import Verif.Properties.Recorder

/-!
# Properties of package httptrace

C44 span IDs in headers; C45 traces across an HTTP call; C46 redaction; C47 malformed headers; C48 and C68 what is recorded of a
response.
-/

namespace Appdash

/-! ## C44 -/

/-- Property C44.  `GetSpanID` returns the span of the `Span-Id` header if there is one, and an error if it is malformed. -/
theorem span_header (src : Nat → ID) (n : Nat) (h : Header) (s : Bytes) (hs : h.Says b!"Span-Id" s) :
    (∀ id, parseSpanID s = .ok id → getSpanID src n h = (some id, none)) ∧
      (∀ e, parseSpanID s = .error e → getSpanID src n h = (none, some e)) := by
  have hf := find_says canonical_spanID hs
  refine ⟨fun id hp => ?_, fun e hp => ?_⟩ <;>
    simp only [getSpanID, getSpanIDFrom, getSpanIDHeader, hf, if_neg hs.1, hp]

/-- Property C44.  Without `Span-Id` header it returns a new child of the span of the `Parent-Span-Id` header if there is one, and
an error if it is malformed. -/
theorem parent_header (src : Nat → ID) (n : Nat) (h : Header) (s : Bytes) (hl : h.Lacks b!"Span-Id")
    (hs : h.Says b!"Parent-Span-Id" s) :
    (∀ p, parseSpanID s = .ok p →
      ∃ id, getSpanID src n h = (some id, none) ∧ ChildOf id p ∧ id.span = src n) ∧
      (∀ e, parseSpanID s = .error e → getSpanID src n h = (none, some e)) := by
  have h0 := find_lacks canonical_spanID hl
  have hf := find_says canonical_parentSpanID hs
  refine ⟨fun id hp => ⟨newSpanID id (src n), ?_, ⟨rfl, rfl⟩, rfl⟩, fun e hp => ?_⟩ <;>
    simp only [getSpanID, getSpanIDFrom, getSpanIDHeader, h0, hf, if_neg hs.1, if_true, hp]

/-- Property C44.  Without both it returns a new root span. -/
theorem no_header (src : Nat → ID) (n : Nat) (h : Header) (hl : h.Lacks b!"Span-Id") (hl' : h.Lacks b!"Parent-Span-Id") :
    ∃ id, getSpanID src n h = (some id, none) ∧ id.parent = 0 ∧ id.trace = src n ∧ id.span = src (n + 1) := by
  have h0 := find_lacks canonical_spanID hl
  have h1 := find_lacks canonical_parentSpanID hl'
  refine ⟨newRootSpanID (src n) (src (n + 1)), ?_, rfl, rfl, rfl⟩
  simp only [getSpanID, getSpanIDFrom, getSpanIDHeader, h0, h1, if_true]

/-- Property C44.  What `SetSpanIDHeader` writes is read back, whatever the header contained before; other headers are untouched. -/
theorem set_then_get (src : Nat → ID) (n : Nat) (h : Header) (e : SpanID) :
    getSpanID src n (setSpanIDHeader h e) = (some e, none) ∧
      ∀ k, k ≠ b!"Span-Id" → AMap.get (setSpanIDHeader h e) k = AMap.get h k := by
  have hg : AMap.get (setSpanIDHeader h e) b!"Span-Id" = some [e.toText] := by
    simp only [setSpanIDHeader, Header.put, canonical_spanID, AMap.get_set_self]
  have hp := span_id_text_roundtrip e
  have hne : e.toText ≠ [] := by
    intro h0
    rw [h0] at hp
    exact absurd hp (by rw [show parseSpanID [] = .error .badSpanID by decide]; simp)
  refine ⟨(span_header src n _ e.toText ⟨hne, [], hg⟩).1 e hp, ?_⟩
  intro k hk
  simp only [setSpanIDHeader, Header.put, canonical_spanID]
  exact AMap.get_set_ne _ _ (Ne.symm hk)

/-- The three cases. -/
example :
    getSpanID (fun i => 7 + i.toUInt64) 0 [(b!"Span-Id", [b!"1/2/3"]), (b!"Parent-Span-Id", [b!"x"])] = (some ⟨1, 2, 3⟩, none) ∧
    getSpanID (fun i => 7 + i.toUInt64) 0 [(b!"Span-Id", [b!""]), (b!"Parent-Span-Id", [b!"1/2"])] = (some ⟨1, 7, 2⟩, none) ∧
    getSpanID (fun i => 7 + i.toUInt64) 0 [(b!"span-id", [b!"1/2"])] = (some ⟨7, 8, 0⟩, none) ∧
    getSpanID (fun i => 7 + i.toUInt64) 0 [(b!"Span-Id", [b!"1/2/3/4"])] = (none, some .badSpanID) := by
  decide

/-! ## C46 -/

/-- Property C46.  Whatever is recorded under the name of a redacted header is the constant. -/
theorem redacted_hidden (red : Redaction) (header trailer : Header) (hh : header.keys.Nodup) (ht : trailer.keys.Nodup)
    (m : AMap Bytes Bytes) (hm : RedactsTo red header trailer m) (name value : Bytes) (hl : red.Lists name)
    (hv : AMap.get m (canonicalKey name) = some value) : value = b!"REDACTED" := by
  obtain ⟨es, he, rfl⟩ := entries_of hh ht hm
  rcases joinLoop_get es [] _ _ hv with ⟨e, hem, hk, rfl⟩ | ⟨h, _⟩
  · have hr := isRedacted_of_lists (lists_congr hl hk)
    have hg := AMap.get_of_mem he.nodup (k := e.1) (v := e.2) hem
    rw [he.get, hr] at hg
    split at hg
    · simp at hg
    · simp only [if_true, Option.some.injEq] at hg
      rw [← hg]
      rfl
  · simp at h

/-- Property C46.  The names recorded are those of the headers and trailers, in canonical form. -/
theorem recorded_names (red : Redaction) (header trailer : Header) (hh : header.keys.Nodup) (ht : trailer.keys.Nodup)
    (m : AMap Bytes Bytes) (hm : RedactsTo red header trailer m) (name : Bytes) :
    (∃ value, AMap.get m name = some value) ↔ ∃ k, (k ∈ header.keys ∨ k ∈ trailer.keys) ∧ canonicalKey k = name := by
  obtain ⟨es, he, rfl⟩ := entries_of hh ht hm
  have hkeys : ∀ k, k ∈ AMap.keys es ↔ (k ∈ header.keys ∨ k ∈ trailer.keys) := by
    intro k
    rw [AMap.mem_keys_iff, AMap.mem_keys_iff, AMap.mem_keys_iff, he.get]
    cases AMap.get header k <;> cases AMap.get trailer k <;> simp
  constructor
  · rintro ⟨value, hv⟩
    rcases joinLoop_get es [] _ _ hv with ⟨e, hem, hk, _⟩ | ⟨h, _⟩
    · exact ⟨e.1, (hkeys _).1 (List.mem_map.2 ⟨e, hem, rfl⟩), hk⟩
    · simp at h
  · rintro ⟨k, hk, hn⟩
    obtain ⟨e, he1, he2⟩ := List.mem_map.1 ((hkeys k).2 hk)
    exact joinLoop_some es [] name (.inl ⟨e, he1, he2 ▸ hn⟩)

/-- Property C46.  Any other header is recorded with all its values, in order, those of the trailer last, if no other spelling of
its name is present. -/
theorem others_recorded (red : Redaction) (header trailer : Header) (hh : header.keys.Nodup) (ht : trailer.keys.Nodup)
    (m : AMap Bytes Bytes) (hm : RedactsTo red header trailer m) (k : Bytes) (hk : k ∈ header.keys ∨ k ∈ trailer.keys)
    (hone : ∀ k', (k' ∈ header.keys ∨ k' ∈ trailer.keys) → canonicalKey k' = canonicalKey k → k' = k)
    (hr : ¬ red.Matches k) :
    AMap.get m (canonicalKey k) =
      some (List.intercalate b!"," ((AMap.get header k).getD [] ++ (AMap.get trailer k).getD [])) := by
  rw [← isRedacted_iff, Bool.not_eq_true] at hr
  obtain ⟨value, hv⟩ := (recorded_names red header trailer hh ht m hm (canonicalKey k)).2 ⟨k, hk, rfl⟩
  obtain ⟨es, he, rfl⟩ := entries_of hh ht hm
  rw [hv]
  rcases joinLoop_get es [] _ _ hv with ⟨e, hem, hc, rfl⟩ | ⟨h, _⟩
  · have hkey : e.1 ∈ AMap.keys es := List.mem_map.2 ⟨e, hem, rfl⟩
    have hkk : e.1 ∈ header.keys ∨ e.1 ∈ trailer.keys := by
      rw [AMap.mem_keys_iff, he.get] at hkey
      rw [AMap.mem_keys_iff, AMap.mem_keys_iff]
      revert hkey
      cases AMap.get header e.1 <;> cases AMap.get trailer e.1 <;> simp
    have hek := hone e.1 hkk hc
    have hg := AMap.get_of_mem he.nodup (k := e.1) (v := e.2) hem
    rw [hek, he.get, hr] at hg
    split at hg
    · simp at hg
    · simp only [Bool.false_eq_true, if_false, Option.some.injEq] at hg
      rw [← hg, joinComma_eq]
  · simp at h

/-- That no other spelling is present is needed: only one of two spellings is recorded. -/
theorem spellings_collide : RedactsTo ⟨[], fun _ _ => false⟩ [(b!"x", [b!"1"]), (b!"X", [b!"2"])] [] [(b!"X", b!"2")] :=
  ⟨_, _, _, .refl _, .refl _, .refl _, by decide⟩

/-- Property C46.  What is recorded does not depend on the values of redacted headers and trailers at all. -/
theorem redacted_irrelevant (red : Redaction) (h h' t t' : Header) (hh : SameButRedacted red h h') (ht : SameButRedacted red t t')
    (m : AMap Bytes Bytes) : RedactsTo red h t m ↔ RedactsTo red h' t' m :=
  ⟨redactsTo_same hh ht, redactsTo_same hh.symm ht.symm⟩

/-- Property C46.  Every letter case of a listed name is redacted, and nothing else. -/
theorem listed_redacted (red : Redaction) (name : Bytes) :
    (isRedacted red name = true ↔ red.Matches name) ∧ (red.Lists name → red.Matches name) :=
  ⟨isRedacted_iff, fun h => isRedacted_iff.1 (isRedacted_of_lists h)⟩

/-- Property C46.  The canonical form of a name differs from it at most in letter case, and names of allowed characters that differ
in letter case only have the same canonical form. -/
theorem canonical_names (k k' : Bytes) :
    SameText (canonicalKey k) k ∧ (SameText k k' → (∀ c ∈ k, IsTokenByte c) → canonicalKey k = canonicalKey k') :=
  ⟨canonical_sameText k, fun h ht => canonical_congr h (List.all_eq_true.2 fun c hc => (tokenByte_iff c).2 (ht c hc))⟩

example : Redaction.Lists ⟨[b!"Authorization"], fun _ _ => false⟩ b!"AUTHORIZATION" := by
  refine ⟨b!"Authorization", by simp, .inl ⟨by decide, by decide, ?_⟩⟩
  rw [sameText_iff]
  decide

example : RedactsTo ⟨[b!"Authorization"], fun _ _ => false⟩
    [(b!"aUTHORIZATION", [b!"secret"]), (b!"Accept", [b!"a", b!"b"])] [(b!"Accept", [b!"c"]), (b!"Authorization", [b!"hidden"])]
    [(b!"Authorization", b!"REDACTED"), (b!"Accept", b!"a,b,c")] :=
  ⟨_, _, _, .refl _, .refl _, .refl _, by decide⟩

/-! ## C45 -/

/-- Property C45, the client.  The request is recorded under a new child of the recorder's span; another new child is sent in the
`Span-Id` header, and all other headers are sent as they are.  The caller's header map, like all others that existed before, is
unmodified. -/
theorem round_trip_spans (env : ClientEnv) (n : Nat) (heap : HeaderHeap) (original : Request) (out : ClientRun)
    (h : RoundTrips env n heap original out) :
    ChildOf out.recorder.span env.span ∧ out.recorder.span.span = env.src n ∧
      (∃ s : SpanID, ChildOf s env.span ∧ s.span = env.src (n + 1) ∧ AMap.get out.sentHeader b!"Span-Id" = some [s.toText]) ∧
      (∀ k, k ≠ b!"Span-Id" → AMap.get out.sentHeader k = AMap.get (original.headerIn heap) k) ∧
      out.sent = { original with header := out.sent.header } ∧ (∀ a < heap.length, out.heap[a]? = heap[a]?) := by
  obtain ⟨h1, h2, h3, _, _, reqHeaders, respInfo, _, _, h4⟩ := h
  have hsent : out.sentHeader = setSpanIDHeader (original.headerIn heap) (newSpanID env.span (env.src (n + 1))) := by
    rw [h3]
    simp [Request.headerIn]
  have hspan := recordsEvent_span h4
  rw [hspan]
  refine ⟨⟨rfl, rfl⟩, rfl, ⟨newSpanID env.span (env.src (n + 1)), ⟨rfl, rfl⟩, rfl, ?_⟩, ?_, ?_, ?_⟩
  · rw [hsent]
    simp only [setSpanIDHeader, Header.put, canonical_spanID, AMap.get_set_self]
  · intro k hk
    rw [hsent]
    exact (set_then_get env.src n _ _).2 k hk
  · rw [h2]
  · intro a ha
    rw [h1]
    simp only
    rw [List.getElem?_set_ne (by omega), List.getElem?_append_left ha]

/-- Property C45, the server.  The middleware passes the request on with the span of its headers, and records it under that span. -/
theorem serves_span (env : ServerEnv) (n : Nat) (r : Request) (h : Header) (out : ServerRun) (hs : Serves env n r h out) (id : SpanID)
    (hid : getSpanID env.src n h = (some id, none)) :
    out.passed = some (r, h, id) ∧ (∀ rec, out.recorder = some rec → rec.span = id) ∧
      (env.next r h id = none ↔ out.recorder = none) := by
  have hg : (getSpanIDFrom env.src n h).spanID = some id := congrArg Prod.fst hid
  simp only [Serves, hg] at hs
  obtain ⟨_, _, hp, hs⟩ := hs
  refine ⟨hp, ?_⟩
  cases hn : env.next r h id with
  | none =>
    rw [hn] at hs
    simp only at hs
    exact ⟨fun rec hr => by rw [hs.2] at hr; simp at hr, by simp [hs.2]⟩
  | some run =>
    rw [hn] at hs
    simp only at hs
    obtain ⟨_, _, _, _, rec, _, _, hrec, hout⟩ := hs
    refine ⟨fun rec' hr => ?_, by simp [hout]⟩
    rw [hout] at hr
    cases hr
    exact recordsEvent_span hrec

/-- Property C45.  A traced client calls a traced server: the handler runs with, and the server records, a span that is a child of
the caller's span, as is the span that the client records.  The caller's header must not hold a span ID under another spelling of
the header's name, which `Header.Set` and `Header.Add` never produce. -/
theorem call_connects (cenv : ClientEnv) (n : Nat) (heap : HeaderHeap) (original : Request) (cout : ClientRun)
    (hc : RoundTrips cenv n heap original cout)
    (hone : ∀ k ∈ (original.headerIn heap).keys, canonicalKey k = b!"Span-Id" → k = b!"Span-Id")
    (hnd : (original.headerIn heap).keys.Nodup)
    (received : Header) (hd : Delivered cout.sentHeader received)
    (senv : ServerEnv) (m : Nat) (r : Request) (sout : ServerRun) (hs : Serves senv m r received sout) :
    ∃ s : SpanID, sout.passed = some (r, received, s) ∧ ChildOf s cenv.span ∧ s.span = cenv.src (n + 1) ∧
      (∀ rec, sout.recorder = some rec → rec.span = s) ∧
      ChildOf cout.recorder.span cenv.span ∧ cout.recorder.span.span = cenv.src n := by
  obtain ⟨h1, h2, ⟨s, h3, h4, h5⟩, _⟩ := round_trip_spans cenv n heap original cout hc
  have hsent : cout.sentHeader = AMap.set (original.headerIn heap) b!"Span-Id" [s.toText] := by
    obtain ⟨_, _, h3', _⟩ := hc
    have e : cout.sentHeader = setSpanIDHeader (original.headerIn heap) (newSpanID cenv.span (cenv.src (n + 1))) := by
      rw [h3']
      simp [Request.headerIn]
    rw [e] at h5
    simp only [setSpanIDHeader, Header.put, canonical_spanID, AMap.get_set_self, Option.some.injEq] at h5
    rw [e]
    simp only [setSpanIDHeader, Header.put, canonical_spanID, h5]
  have hv : cout.sentHeader.valuesUnder b!"Span-Id" = [s.toText] := by
    rw [hsent]
    exact valuesUnder_set _ _ _ (by decide) hnd hone
  have hr : ∃ vs, AMap.get received b!"Span-Id" = some (s.toText :: vs) := by
    have := hd b!"Span-Id"
    rw [hv] at this
    have := List.perm_singleton.1 this
    cases hg : AMap.get received b!"Span-Id" with
    | none => rw [hg] at this; simp at this
    | some vs =>
      rw [hg] at this
      simp only [Option.getD_some] at this
      exact ⟨[], by rw [this]⟩
  have hp := span_id_text_roundtrip s
  have hne : s.toText ≠ [] := by
    intro h0
    rw [h0] at hp
    exact absurd hp (by rw [show parseSpanID [] = .error .badSpanID by decide]; simp)
  have hid := (span_header senv.src m received s.toText ⟨hne, hr⟩).1 s hp
  obtain ⟨h6, h7, _⟩ := serves_span senv m r received sout hs s hid
  exact ⟨s, h6, h3, h4, h7, h1, h2⟩

/-- Property C45.  What a client or server records: if the collector accepts it, exactly one call, with annotations from which
`UnmarshalEvents` gets back the name, if any, and the event. -/
theorem recorded_readable (reg : Registry) (hreg : registerAll libraryEvents [] = some reg) (env : RecEnv)
    (ha : ∀ calls call, env.answer calls call = none) (span : SpanID) (name : Option Bytes) (E : EventType)
    (hE : E ∈ libraryEvents) (hn : E.schema ≠ b!"name") (v : GVal) (hv : E.type.holds v = true) (r : Recorder)
    (h : RecordsEvent env span name E v r) :
    ∃ as out, r.calls = [(span, as)] ∧ unmarshalEvents reg as = some (out, none) ∧
      List.Forall₂ (fun e o => o.1 = e.1.schema ∧ e.2.Same o.2)
        (name.toList.map (fun s => (spanNameEvent, nameValue s)) ++ [(E, v)]) out := by
  obtain ⟨ops, eventAs, h1, h2, rfl⟩ := h
  have one := fun (before : List RecOp) (hb : ∀ op ∈ before, ∃ as, op = RecOp.event (.ok as)) =>
    recorder_once env false span before [] (fun as hm => by
        obtain ⟨_, h⟩ := hb _ (by simpa using hm); cases h)
      (fun err hm => by obtain ⟨_, h⟩ := hb _ (by simpa using hm); cases h)
      (by
        rw [List.any_eq_false]
        intro op hop
        obtain ⟨as, rfl⟩ := hb op hop
        simp [Spec.isFinish]) rfl (ha _ _)
  cases name with
  | none =>
    simp only at h1
    subst h1
    refine ⟨eventAs, ?_⟩
    obtain ⟨out, h3, h4⟩ := library_events_roundtrip reg hreg [(E, v)] [eventAs] (.cons h2 .nil) (by simpa using hE)
      (by simpa using hv) (by simp) (by
        rintro ⟨⟨e, he, h5⟩, ⟨f, hf, h6⟩⟩
        simp only [List.mem_singleton] at he hf
        subst he; subst hf
        rw [h5] at h6
        simp at h6)
    refine ⟨out, ?_, by simpa using h3, h4⟩
    have := one [.event (.ok eventAs)] (by simp)
    simpa [Spec.eventAnnotations] using this
  | some s =>
    simp only at h1
    obtain ⟨as, h1, rfl⟩ := h1
    refine ⟨as ++ eventAs, ?_⟩
    obtain ⟨out, h3, h4⟩ := library_events_roundtrip reg hreg [(spanNameEvent, nameValue s), (E, v)] [as, eventAs]
      (.cons h1 (.cons h2 .nil)) (by
        intro e he
        simp only [List.mem_cons, List.not_mem_nil, or_false] at he
        rcases he with rfl | rfl
        · simp [libraryEvents]
        · exact hE) (by
        intro e he
        simp only [List.mem_cons, List.not_mem_nil, or_false] at he
        rcases he with rfl | rfl
        · rfl
        · exact hv) (by simpa [spanNameEvent] using Ne.symm hn) (by
        rintro ⟨⟨e, he, h5⟩, ⟨f, hf, h6⟩⟩
        simp only [List.mem_cons, List.not_mem_nil, or_false] at he hf
        rcases he with rfl | rfl
        · simp [spanNameEvent] at h5
        · rcases hf with rfl | rfl
          · simp [spanNameEvent] at h6
          · rw [h5] at h6; simp at h6)
    refine ⟨out, ?_, by simpa using h3, h4⟩
    have := one [.event (.ok as), .event (.ok eventAs)] (by simp)
    simpa [Spec.eventAnnotations] using this

/-- Property C45.  So the client's span can be read back: it has the name, if one is set, and one client event with the times, the
request's data, and the status of the response, or -1 if there is none. -/
theorem round_trip_readable (env : ClientEnv) (n : Nat) (heap : HeaderHeap) (original : Request) (out : ClientRun)
    (h : RoundTrips env n heap original out) (reg : Registry) (hreg : registerAll libraryEvents [] = some reg)
    (ha : ∀ calls call, env.collector.answer calls call = none)
    (ht : ScalarTy.time.holds (.time env.sendTime) = true ∧ ScalarTy.time.holds (.time env.recvTime) = true)
    (hl : -2 ^ 63 ≤ original.contentLength ∧ original.contentLength < 2 ^ 63)
    (hr : ∀ resp, out.result = .ok resp →
      (-2 ^ 63 ≤ resp.contentLength ∧ resp.contentLength < 2 ^ 63) ∧ -2 ^ 63 ≤ resp.statusCode ∧ resp.statusCode < 2 ^ 63) :
    ∃ as evs reqHeaders respInfo, out.recorder.calls = [(out.recorder.span, as)] ∧ unmarshalEvents reg as = some (evs, none) ∧
      RedactsTo env.red out.sentHeader original.trailer reqHeaders ∧
      (∀ e, out.result = .error e → respInfo = .struct [.map [], .scalar (.int 0), .scalar (.int (-1))]) ∧
      (∀ resp, out.result = .ok resp → ∃ respHeaders, RedactsTo env.red resp.header resp.trailer respHeaders ∧
        respInfo = responseInfo resp respHeaders) ∧
      List.Forall₂ (fun e o => o.1 = e.1.schema ∧ e.2.Same o.2)
        ((if env.setName then [(spanNameEvent, nameValue (b!"Request " ++ original.urlHost))] else []) ++
          [(clientEvent, .struct [requestInfo original reqHeaders, respInfo, .scalar (.time env.sendTime),
            .scalar (.time env.recvTime)])]) evs := by
  obtain ⟨h1, h2, h3, hres, _, reqHeaders, respInfo, hreq, hresp, hrec⟩ := h
  have hspan := recordsEvent_span hrec
  have hi : responseInfoType.holds respInfo = true := by
    rw [← hres] at hresp
    cases ho : out.result with
    | error e =>
      rw [ho] at hresp
      rw [show respInfo = _ from hresp]
      decide
    | ok resp =>
      rw [ho] at hresp
      obtain ⟨m, hm, rfl⟩ := hresp
      obtain ⟨r1, r2⟩ := hr resp ho
      exact holds_responseInfo _ _ (redactsTo_nodup hm) r1 r2
  have hq : requestInfoType.holds (requestInfo (cloneRequest heap original).2 reqHeaders) = true :=
    holds_requestInfo _ _ (redactsTo_nodup hreq) hl
  have hv : clientEvent.type.holds (.struct [requestInfo (cloneRequest heap original).2 reqHeaders, respInfo,
      .scalar (.time env.sendTime), .scalar (.time env.recvTime)]) = true := by
    simp only [clientEvent, GType.holds, holdsAll, hq, hi, tTime, ht.1, ht.2, Bool.and_true]
  obtain ⟨as, evs, h4, h5, h6⟩ := recorded_readable reg hreg env.collector ha _ _ clientEvent (by simp [libraryEvents])
    (by decide) _ hv _ hrec
  refine ⟨as, evs, reqHeaders, respInfo, ?_, h5, ?_, ?_, ?_, ?_⟩
  · rw [hspan]; exact h4
  · rw [h3]; exact hreq
  · intro e he
    rw [← hres, he] at hresp
    exact hresp
  · intro resp he
    rw [← hres, he] at hresp
    exact hresp
  · have hn : (if env.setName = true then some (b!"Request " ++ (cloneRequest heap original).2.urlHost) else none).toList.map
        (fun s => (spanNameEvent, nameValue s)) =
        if env.setName then [(spanNameEvent, nameValue (b!"Request " ++ original.urlHost))] else [] := by
      cases env.setName <;> rfl
    rw [← hn]
    exact h6

/-- Property C46, for the client.  What is collected does not depend on the values of redacted headers of the request and the
response. -/
theorem client_redacted_irrelevant (env env' : ClientEnv) (n : Nat) (heap heap' : HeaderHeap) (r r' : Request)
    (henv : env' = { env with transport := env'.transport })
    (hr : r' = { r with header := r'.header, trailer := r'.trailer })
    (hh : SameButRedacted env.red (r.headerIn heap) (r'.headerIn heap')) (ht : SameButRedacted env.red r.trailer r'.trailer)
    (hresp : ∀ q q' h h', match env.transport q h, env'.transport q' h' with
      | .ok x, .ok y => x.contentLength = y.contentLength ∧ x.statusCode = y.statusCode ∧
          SameButRedacted env.red x.header y.header ∧ SameButRedacted env.red x.trailer y.trailer
      | .error _, .error _ => True
      | _, _ => False)
    (out : ClientRun) (h : RoundTrips env n heap r out) :
    ∃ out', RoundTrips env' n heap' r' out' ∧ out'.recorder = out.recorder := by
  obtain ⟨h1, h2, h3, h4, h5, reqHeaders, respInfo, h6, h7, h8⟩ := h
  obtain ⟨span, setName, red, collector, src, transport', sendTime, recvTime⟩ := env'
  obtain ⟨span0, setName0, red0, collector0, src0, transport, sendTime0, recvTime0⟩ := env
  simp only [ClientEnv.mk.injEq] at henv
  obtain ⟨e1, e2, e3, e4, e5, _, e6, e7⟩ := henv
  cases e1; cases e2; cases e3; cases e4; cases e5; cases e6; cases e7
  let heap1' := (cloneRequest heap' r').1
  let req' := (cloneRequest heap' r').2
  let header' := setSpanIDHeader (req'.headerIn heap1') (newSpanID span (src (n + 1)))
  let heap2' := heap1'.set req'.header header'
  have hreq : req'.headerIn heap2' = header' := by simp [req', heap2', heap1', cloneRequest, Request.headerIn]
  have hc1 : (cloneRequest heap r).2.headerIn (cloneRequest heap r).1 = r.headerIn heap := by
    simp [cloneRequest, Request.headerIn]
  have hc2 : req'.headerIn heap1' = r'.headerIn heap' := by simp [req', heap1', cloneRequest, Request.headerIn]
  refine ⟨⟨heap2', req', req'.headerIn heap2', out.recorder, transport' req' header', n + 2⟩, ?_, rfl⟩
  refine ⟨rfl, rfl, rfl, rfl, rfl, reqHeaders, respInfo, ?_, ?_, ?_⟩
  · refine redactsTo_same ?_ ?_ h6
    · show SameButRedacted red _ (req'.headerIn heap2')
      rw [hreq]
      have : ((cloneRequest heap r).2.headerIn ((cloneRequest heap r).1.set (cloneRequest heap r).2.header
          (setSpanIDHeader ((cloneRequest heap r).2.headerIn (cloneRequest heap r).1) (newSpanID span (src (n + 1)))))) =
          setSpanIDHeader (r.headerIn heap) (newSpanID span (src (n + 1))) := by
        simp [cloneRequest, Request.headerIn]
      show SameButRedacted red ((cloneRequest heap r).2.headerIn ((cloneRequest heap r).1.set (cloneRequest heap r).2.header
          (setSpanIDHeader ((cloneRequest heap r).2.headerIn (cloneRequest heap r).1) (newSpanID span (src (n + 1)))))) _
      rw [this]
      simp only [header', hc2]
      exact hh.set _ _
    · exact ht
  · have hx := hresp (cloneRequest heap r).2 req'
      (setSpanIDHeader ((cloneRequest heap r).2.headerIn (cloneRequest heap r).1) (newSpanID span (src (n + 1)))) header'
    show RecordedResponse red (transport' req' header') respInfo
    have h7' : RecordedResponse red (transport (cloneRequest heap r).2
      (setSpanIDHeader ((cloneRequest heap r).2.headerIn (cloneRequest heap r).1) (newSpanID span (src (n + 1))))) respInfo := h7
    revert hx h7'
    simp only
    generalize transport (cloneRequest heap r).2 _ = x
    generalize transport' req' header' = y
    cases x <;> cases y <;> simp only [RecordedResponse, false_imp_iff, imp_self, forall_const, imp_true_iff]
    rintro ⟨x1, x2, x3, x4⟩ ⟨m, hm, rfl⟩
    exact ⟨m, redactsTo_same x3 x4 hm, by simp [responseInfo, x1, x2]⟩
  · have e : requestInfo req' reqHeaders = requestInfo (cloneRequest heap r).2 reqHeaders ∧
        req'.urlHost = (cloneRequest heap r).2.urlHost := by
      simp only [req', cloneRequest]
      rw [hr]
      exact ⟨rfl, rfl⟩
    have h8' : RecordsEvent collector (newSpanID span (src n))
        (if setName then some (b!"Request " ++ (cloneRequest heap r).2.urlHost) else none) clientEvent
        (.struct [requestInfo (cloneRequest heap r).2 reqHeaders, respInfo, .scalar (.time sendTime), .scalar (.time recvTime)])
        out.recorder := h8
    rw [← e.1, ← e.2] at h8'
    exact h8'

/-! ## C47 -/

/-- Property C47, in full: the middleware passes every request on to the next handler. -/
def AlwaysPassesOn : Prop :=
  ∀ (env : ServerEnv) (n : Nat) (r : Request) (h : Header) (out : ServerRun), Serves env n r h out → out.passed ≠ none

/-- A malformed span ID makes the middleware panic before it calls the next handler, after the warning that it would continue. -/
theorem malformed_panics (env : ServerEnv) (n : Nat) (r : Request) (h : Header) (e : SpanIDError)
    (he : (getSpanID env.src n h).2 = some e) (out : ServerRun) (hs : Serves env n r h out) :
    out.warned = true ∧ out.passed = none ∧ out.panicked = true ∧ out.recorder = none := by
  have hnone : (getSpanIDFrom env.src n h).spanID = none := getSpanIDFrom_err he
  have he' : (getSpanIDFrom env.src n h).err = some e := he
  simp only [Serves, hnone, he'] at hs
  exact ⟨hs.1, hs.2.2.1, hs.2.2.2.1, hs.2.2.2.2.2⟩

/-- For every request there is an outcome. -/
theorem serves_total (env : ServerEnv) (n : Nat) (r : Request) (h : Header) : ∃ out, Serves env n r h out := by
  cases hg : (getSpanIDFrom env.src n h).spanID with
  | none =>
    exact ⟨⟨none, true, (getSpanIDFrom env.src n h).err.isSome, .new env.canFlush, none, (getSpanIDFrom env.src n h).used⟩, by simp [Serves, hg]⟩
  | some id =>
    cases hn : env.next r h id with
    | none => exact ⟨⟨some (r, h, id), true, (getSpanIDFrom env.src n h).err.isSome, .new env.canFlush, none,
        (getSpanIDFrom env.src n h).used⟩, by
        simp [Serves, hg, hn]⟩
    | some run =>
      obtain ⟨m1, hm1⟩ := redactsTo_total env.red h r.trailer
      obtain ⟨m2, hm2⟩ := redactsTo_total env.red run.requestHeader run.request.trailer
      let route := callIfSet env.routeName run.request run.requestHeader
      let user := callIfSet env.currentUser run.request run.requestHeader
      let writer := (ResponseRecorder.new env.canFlush).run run.ops
      let resp := writer.partialResponse (setSpanIDHeader run.header id)
      obtain ⟨m3, hm3⟩ := redactsTo_total env.red resp.header resp.trailer
      let reqInfo := if (getSpanIDFrom env.src n h).fromHeader = headerSpanID then requestInfo r m1 else requestInfo run.request m2
      obtain ⟨rec, hrec⟩ := recordsEvent_total env.collector id
        (some (b!"Serve " ++ if route ≠ [] then route else run.request.urlHost ++ run.request.urlPath)) serverEvent rfl
        (.struct [reqInfo, responseInfo resp m3, gString route, gString user, .scalar (.time env.recvTime),
            .scalar (.time env.sendTime)])
      refine ⟨⟨some (r, h, id), false, (getSpanIDFrom env.src n h).err.isSome, writer, some rec,
        (getSpanIDFrom env.src n h).used⟩, ?_⟩
      simp only [Serves, hg, hn]
      refine ⟨trivial, trivial, trivial, trivial, rfl, reqInfo, m3, rec, ?_, hm3, hrec, rfl⟩
      by_cases hf : (getSpanIDFrom env.src n h).fromHeader = headerSpanID
      · simp only [reqInfo, if_pos hf]; exact ⟨m1, hm1, rfl⟩
      · simp only [reqInfo, if_neg hf]; exact ⟨m2, hm2, rfl⟩

/-- Property C47 is false of the code. -/
theorem always_passes_on_false : ¬ AlwaysPassesOn := by
  intro hall
  let env : ServerEnv := ⟨⟨[], fun _ _ => false⟩, ⟨fun _ _ => none, fun _ _ _ => []⟩, fun _ => 1, none, none, fun _ _ _ => none, true,
    .zero, .zero⟩
  let r : Request := ⟨[], [], [], [], [], [], [], 0, 0, []⟩
  obtain ⟨out, hs⟩ := serves_total env 0 r [(b!"Span-Id", [b!"x"])]
  exact hall env 0 r _ out hs (malformed_panics env 0 r [(b!"Span-Id", [b!"x"])] .badSpanID (by decide) out hs).2.1

/-- Property C47, proved part: every request is passed on, unmodified, whose headers give no malformed span ID: those without the
two headers, and those whose first relevant header is well-formed. -/
theorem always_passes_on_partial (env : ServerEnv) (n : Nat) (r : Request) (h : Header) (out : ServerRun) (hs : Serves env n r h out)
    (hok : (∃ s id, h.Says b!"Span-Id" s ∧ parseSpanID s = .ok id) ∨
      (h.Lacks b!"Span-Id" ∧ ∃ s id, h.Says b!"Parent-Span-Id" s ∧ parseSpanID s = .ok id) ∨
      (h.Lacks b!"Span-Id" ∧ h.Lacks b!"Parent-Span-Id")) :
    ∃ id, out.passed = some (r, h, id) ∧ out.warned = false := by
  have hid : ∃ id, getSpanID env.src n h = (some id, none) := by
    rcases hok with ⟨s, id, h1, h2⟩ | ⟨h0, s, id, h1, h2⟩ | ⟨h0, h1⟩
    · exact ⟨id, (span_header env.src n h s h1).1 id h2⟩
    · obtain ⟨id', h3, _⟩ := (parent_header env.src n h s h0 h1).1 id h2
      exact ⟨id', h3⟩
    · obtain ⟨id, h3, _⟩ := no_header env.src n h h0 h1
      exact ⟨id, h3⟩
  obtain ⟨id, hid⟩ := hid
  refine ⟨id, (serves_span env n r h out hs id hid).1, ?_⟩
  have : (getSpanIDFrom env.src n h).err = none := congrArg Prod.snd hid
  rw [hs.1, this]
  rfl

/-- Every round trip has an outcome. -/
theorem round_trips_total (env : ClientEnv) (n : Nat) (heap : HeaderHeap) (r : Request) : ∃ out, RoundTrips env n heap r out := by
  let heap1 := (cloneRequest heap r).1
  let req := (cloneRequest heap r).2
  let header := setSpanIDHeader (req.headerIn heap1) (newSpanID env.span (env.src (n + 1)))
  let heap2 := heap1.set req.header header
  obtain ⟨m, hm⟩ := redactsTo_total env.red (req.headerIn heap2) req.trailer
  have hx : ∃ respInfo, RecordedResponse env.red (env.transport req header) respInfo := by
    cases env.transport req header with
    | error e => exact ⟨_, rfl⟩
    | ok resp =>
      obtain ⟨m', hm'⟩ := redactsTo_total env.red resp.header resp.trailer
      exact ⟨_, m', hm', rfl⟩
  obtain ⟨respInfo, hx⟩ := hx
  obtain ⟨rec, hrec⟩ := recordsEvent_total env.collector (newSpanID env.span (env.src n))
    (if env.setName then some (b!"Request " ++ req.urlHost) else none) clientEvent rfl
    (.struct [requestInfo req m, respInfo, .scalar (.time env.sendTime), .scalar (.time env.recvTime)])
  exact ⟨⟨heap2, req, req.headerIn heap2, rec, env.transport req header, n + 2⟩, rfl, rfl, rfl, rfl, rfl, m, respInfo, hm, hx, hrec⟩

/-! ## C48 -/

/-- Property C48.  The recorded content length is the number of bytes that the handler wrote, all of which are passed on. -/
theorem recorded_length (canFlush : Bool) (ops : List WriterOp) (header : Header) :
    (((ResponseRecorder.new canFlush).run ops).partialResponse header).contentLength = (written ops).length ∧
      ((ResponseRecorder.new canFlush).run ops).under.body = written ops := by
  have key : ∀ (r : ResponseRecorder), (r.run ops).contentLength = r.contentLength + (written ops).length ∧
      (r.run ops).under.body = r.under.body ++ written ops := by
    induction ops with
    | nil => intro r; simp [ResponseRecorder.run, written]
    | cons op ops ih =>
      intro r
      have ih := ih (r.step op)
      rw [show r.run (op :: ops) = (r.step op).run ops from rfl, ih.1, ih.2]
      cases op with
      | write b => simp [ResponseRecorder.step, NetWriter.step, written]; omega
      | writeHeader c => simp [ResponseRecorder.step, NetWriter.step, written]
      | flush => simp only [ResponseRecorder.step, written]; split <;> simp [NetWriter.step]
  have := key (.new canFlush)
  simpa [ResponseRecorder.partialResponse, ResponseRecorder.new] using this

/-- Property C48.  The recorded status is the code of the last `WriteHeader` call, or 200 if there was none, for codes that are not
zero. -/
theorem recorded_status (canFlush : Bool) (ops : List WriterOp) (header : Header) (h0 : 0 ∉ codes ops) :
    (((ResponseRecorder.new canFlush).run ops).partialResponse header).statusCode = (codes ops).getLastD 200 := by
  have key : ∀ (ops : List WriterOp) (r : ResponseRecorder), 0 ∉ codes ops →
      (r.run ops).status = (codes ops).getLastD r.status := by
    intro ops
    induction ops with
    | nil => intro r _; rfl
    | cons op ops ih =>
      intro r h
      rw [show r.run (op :: ops) = (r.step op).run ops from rfl]
      cases op with
      | write b =>
        rw [ih _ h]
        simp only [ResponseRecorder.step, ResponseRecorder.status, codes]
        split <;> simp_all
      | writeHeader c =>
        simp only [codes, List.mem_cons, not_or] at h
        rw [ih _ h.2]
        simp only [ResponseRecorder.step, ResponseRecorder.status, codes, List.getLastD_cons]
        have hc : ¬ c = 0 := fun e => h.1 e.symm
        simp [hc]
      | flush =>
        rw [ih _ h]
        simp only [ResponseRecorder.step, ResponseRecorder.status, codes]
        split <;> rfl
  exact key ops _ h0

/-- Property C48.  The recorder passes all calls on to the response writer, in order. -/
theorem recorder_transparent (ops : List WriterOp) : ((ResponseRecorder.new true).run ops).under = ops.foldl NetWriter.step ⟨none, []⟩ := by
  have key : ∀ (r : ResponseRecorder), r.canFlush = true → (r.run ops).under = ops.foldl NetWriter.step r.under := by
    induction ops with
    | nil => intro r _; rfl
    | cons op ops ih =>
      intro r hr
      rw [show r.run (op :: ops) = (r.step op).run ops from rfl, List.foldl_cons]
      cases op with
      | write b => exact ih _ hr
      | writeHeader c => exact ih _ hr
      | flush => rw [ih _ (by simp [ResponseRecorder.step, hr])]; simp [ResponseRecorder.step, hr]
  exact key _ rfl

example : ((ResponseRecorder.new true).run [.writeHeader 404, .write b!"not ", .flush, .write b!"found"]).partialResponse [] =
    ⟨[], [], 9, 404⟩ := by decide

/-! ## C45, continued -/

/-- Property C45.  The server's span can be read back too: its name, and one server event with the request, the status and length of
the response, the route and the user. -/
theorem serves_readable (env : ServerEnv) (n : Nat) (r : Request) (h : Header) (out : ServerRun) (hs : Serves env n r h out) (id : SpanID)
    (hid : getSpanID env.src n h = (some id, none)) (run : HandlerRun) (hnext : env.next r h id = some run)
    (reg : Registry) (hreg : registerAll libraryEvents [] = some reg) (ha : ∀ calls call, env.collector.answer calls call = none)
    (ht : ScalarTy.time.holds (.time env.recvTime) = true ∧ ScalarTy.time.holds (.time env.sendTime) = true)
    (hl : (-2 ^ 63 ≤ r.contentLength ∧ r.contentLength < 2 ^ 63) ∧
      -2 ^ 63 ≤ run.request.contentLength ∧ run.request.contentLength < 2 ^ 63)
    (hw : (written run.ops).length < 2 ^ 63) (hc : ∀ c ∈ codes run.ops, c ≠ 0 ∧ -2 ^ 63 ≤ c ∧ c < 2 ^ 63) :
    ∃ rec as evs reqInfo respHeaders, out.recorder = some rec ∧ rec.calls = [(id, as)] ∧ unmarshalEvents reg as = some (evs, none) ∧
      (∃ q qh m, ((q = r ∧ qh = h) ∨ (q = run.request ∧ qh = run.requestHeader)) ∧ RedactsTo env.red qh q.trailer m ∧
        reqInfo = requestInfo q m) ∧
      RedactsTo env.red (AMap.set run.header b!"Span-Id" [id.toText]) [] respHeaders ∧
      List.Forall₂ (fun e o => o.1 = e.1.schema ∧ e.2.Same o.2)
        [(spanNameEvent, nameValue (b!"Serve " ++
            (match (env.routeName.map fun f => f run.request run.requestHeader).getD [] with
              | [] => run.request.urlHost ++ run.request.urlPath
              | route => route))),
          (serverEvent, .struct [reqInfo,
            .struct [gStrings respHeaders, .scalar (.int (written run.ops).length), .scalar (.int ((codes run.ops).getLastD 200))],
            gString ((env.routeName.map fun f => f run.request run.requestHeader).getD []),
            gString ((env.currentUser.map fun f => f run.request run.requestHeader).getD []),
            .scalar (.time env.recvTime), .scalar (.time env.sendTime)])] evs := by
  have hg : (getSpanIDFrom env.src n h).spanID = some id := congrArg Prod.fst hid
  simp only [Serves, hg, hnext] at hs
  obtain ⟨_, _, _, _, hwr, reqInfo, respHeaders, rec, hreq, hresp, hrec, hout⟩ := hs
  have hreq' : ∃ q qh m, ((q = r ∧ qh = h) ∨ (q = run.request ∧ qh = run.requestHeader)) ∧ RedactsTo env.red qh q.trailer m ∧
      reqInfo = requestInfo q m := by
    split at hreq
    · obtain ⟨m, h1, h2⟩ := hreq
      exact ⟨r, h, m, .inl ⟨rfl, rfl⟩, h1, h2⟩
    · obtain ⟨m, h1, h2⟩ := hreq
      exact ⟨_, _, m, .inr ⟨rfl, rfl⟩, h1, h2⟩
  have hrt : callIfSet env.routeName run.request run.requestHeader = (env.routeName.map fun f => f run.request run.requestHeader).getD [] := by
    unfold callIfSet
    cases env.routeName <;> rfl
  have hus : callIfSet env.currentUser run.request run.requestHeader = (env.currentUser.map fun f => f run.request run.requestHeader).getD [] := by
    unfold callIfSet
    cases env.currentUser <;> rfl
  rw [hrt, hus] at hrec
  have hlen := (recorded_length env.canFlush run.ops (setSpanIDHeader run.header id)).1
  have hst := recorded_status env.canFlush run.ops (setSpanIDHeader run.header id) (fun h0 => (hc 0 h0).1 rfl)
  rw [← hwr] at hlen hst
  have hri : responseInfoType.holds (responseInfo (out.writer.partialResponse (setSpanIDHeader run.header id)) respHeaders) = true := by
    refine holds_responseInfo _ _ (redactsTo_nodup hresp) ?_ ?_
    · rw [hlen]; omega
    · rw [hst]
      have : ∀ (l : List Int), (∀ c ∈ l, c ≠ 0 ∧ -2 ^ 63 ≤ c ∧ c < 2 ^ 63) → -2 ^ 63 ≤ l.getLastD 200 ∧ l.getLastD 200 < 2 ^ 63 := by
        intro l hl
        rw [List.getLastD_eq_getLast?]
        cases hx : l.getLast? with
        | none => exact ⟨by decide, by decide⟩
        | some c => exact (hl c (List.mem_of_getLast? hx)).2
      exact this _ hc
  have hqi : requestInfoType.holds reqInfo = true := by
    obtain ⟨q, qh, m, hq, hm, rfl⟩ := hreq'
    refine holds_requestInfo _ _ (redactsTo_nodup hm) ?_
    rcases hq with ⟨rfl, rfl⟩ | ⟨rfl, rfl⟩
    · exact hl.1
    · exact hl.2
  have hv : serverEvent.type.holds (.struct [reqInfo, responseInfo (out.writer.partialResponse (setSpanIDHeader run.header id)) respHeaders,
      gString ((env.routeName.map fun f => f run.request run.requestHeader).getD []),
      gString ((env.currentUser.map fun f => f run.request run.requestHeader).getD []),
      .scalar (.time env.recvTime), .scalar (.time env.sendTime)]) = true := by
    simp only [serverEvent, GType.holds, holdsAll, hqi, hri, tTime, ht.1, ht.2, Bool.and_true]
    rfl
  obtain ⟨as, evs, h4, h5, h6⟩ := recorded_readable reg hreg env.collector ha _ _ serverEvent (by simp [libraryEvents])
    (by decide) _ hv _ hrec
  refine ⟨rec, as, evs, reqInfo, respHeaders, hout, h4, h5, hreq', ?_, ?_⟩
  · have : setSpanIDHeader run.header id = AMap.set run.header b!"Span-Id" [id.toText] := by
      simp only [setSpanIDHeader, Header.put, canonical_spanID]
    rw [← this]
    exact hresp
  · simp only [Option.toList_some, List.map_cons, List.map_nil, List.cons_append, List.nil_append, responseInfo, hlen, hst] at h6
    generalize (env.routeName.map fun f => f run.request run.requestHeader).getD [] = route at h6 ⊢
    cases route <;> simpa using h6

/-- A header map whose keys are canonical, as `Header.Set` and `Header.Add` make them, is delivered as it is. -/
theorem delivered_self (h : Header) (hn : h.keys.Nodup) (hc : ∀ k ∈ h.keys, canonicalKey k = k) : Delivered h h := by
  intro name
  suffices hs : h.valuesUnder name = (AMap.get h name).getD [] by rw [hs]
  induction h with
  | nil => rfl
  | cons e es ih =>
    obtain ⟨a, w⟩ := e
    simp only [AMap.keys, List.map_cons, List.nodup_cons] at hn
    have ha : canonicalKey a = a := hc a (List.mem_cons_self ..)
    have ih := ih hn.2 fun k hk => hc k (List.mem_cons_of_mem _ hk)
    by_cases hk : a = name
    · subst hk
      have : Header.valuesUnder es a = [] := valuesUnder_of_no_key (by
        intro k hk hka
        rw [hc k (List.mem_cons_of_mem _ hk)] at hka
        subst hka
        exact hn.1 hk)
      unfold Header.valuesUnder at this ⊢
      simp [ha, this, AMap.get]
    · unfold Header.valuesUnder at ih ⊢
      simp [ha, hk, ih, AMap.get]

/-- The hypotheses of `call_connects` are met: a call with two headers, to a server that replies. -/
example : ∃ (cenv : ClientEnv) (senv : ServerEnv) (heap : HeaderHeap) (q r : Request) (cout : ClientRun) (received : Header)
    (sout : ServerRun), RoundTrips cenv 0 heap q cout ∧
      (∀ k ∈ (q.headerIn heap).keys, canonicalKey k = b!"Span-Id" → k = b!"Span-Id") ∧ (q.headerIn heap).keys.Nodup ∧
      Delivered cout.sentHeader received ∧ Serves senv 0 r received sout ∧ (q.headerIn heap).length = 2 ∧ sout.panicked = false := by
  let cenv : ClientEnv := ⟨⟨1, 2, 0⟩, true, ⟨[], fun _ _ => false⟩, ⟨fun _ _ => none, fun _ _ _ => []⟩, fun i => 3 + i.toUInt64,
    fun _ _ => .ok ⟨[], [], 0, 200⟩, .zero, .zero⟩
  let r : Request := ⟨[], [], [], [], [], [], [], 0, 0, []⟩
  let senv : ServerEnv := ⟨⟨[], fun _ _ => false⟩, ⟨fun _ _ => none, fun _ _ _ => []⟩, fun _ => 1, none, none,
    fun _ _ _ => some ⟨[.write b!"ok"], [], r, []⟩, true, .zero, .zero⟩
  let heap : HeaderHeap := [[(b!"Accept", [b!"x"]), (b!"Span-Id", [b!"9/9"])]]
  obtain ⟨cout, hc⟩ := round_trips_total cenv 0 heap r
  have hsent : cout.sentHeader = [(b!"Accept", [b!"x"]), (b!"Span-Id", [SpanID.toText ⟨1, 4, 2⟩])] := by
    rw [hc.2.2.1]
    rfl
  obtain ⟨sout, hs⟩ := serves_total senv 0 r cout.sentHeader
  refine ⟨cenv, senv, heap, r, r, cout, cout.sentHeader, sout, hc, by decide, by decide, ?_, hs, rfl, ?_⟩
  · rw [hsent]
    exact delivered_self _ (by decide) (by decide)
  · have hid : (getSpanIDFrom senv.src 0 cout.sentHeader).spanID = some ⟨1, 4, 2⟩ := by rw [hsent]; decide
    simp only [Serves, hid] at hs
    exact hs.2.2.2.1

/-- A client and a server, and their registry, meet the hypotheses of `round_trip_readable` and `serves_readable`: 5 bytes are sent, and
404 is answered. -/
example : ∃ (cenv : ClientEnv) (senv : ServerEnv) (q : Request) (cout : ClientRun) (h : Header) (sout : ServerRun) (run : HandlerRun)
    (reg : Registry), registerAll libraryEvents [] = some reg ∧
      RoundTrips cenv 0 [[(b!"Accept", [b!"x"])]] q cout ∧ (∀ calls call, cenv.collector.answer calls call = none) ∧
      (ScalarTy.time.holds (.time cenv.sendTime) = true ∧ ScalarTy.time.holds (.time cenv.recvTime) = true) ∧
      q.contentLength = 5 ∧ cout.result = .ok ⟨[], [], 9, 404⟩ ∧
      Serves senv 0 q h sout ∧ getSpanID senv.src 0 h = (some ⟨1, 4, 2⟩, none) ∧ senv.next q h ⟨1, 4, 2⟩ = some run ∧
      (∀ calls call, senv.collector.answer calls call = none) ∧
      (ScalarTy.time.holds (.time senv.recvTime) = true ∧ ScalarTy.time.holds (.time senv.sendTime) = true) ∧
      run.request.contentLength = 5 ∧ (written run.ops).length = 9 ∧ codes run.ops = [404] := by
  let q : Request := ⟨b!"POST", b!"/", [], [], b!"HTTP/1.1", b!"a", [], 5, 0, []⟩
  let cenv : ClientEnv := ⟨⟨1, 2, 0⟩, true, ⟨[], fun _ _ => false⟩, ⟨fun _ _ => none, fun _ _ _ => []⟩, fun i => 3 + i.toUInt64,
    fun _ _ => .ok ⟨[], [], 9, 404⟩, ⟨2016, 7, 1, 10, 20, 30, 0, 0⟩, ⟨2016, 7, 1, 10, 20, 31, 0, 0⟩⟩
  let senv : ServerEnv := ⟨⟨[], fun _ _ => false⟩, ⟨fun _ _ => none, fun _ _ _ => []⟩, fun _ => 1, none, none,
    fun _ _ _ => some ⟨[.writeHeader 404, .write b!"not found"], [], q, []⟩, true, ⟨2016, 7, 1, 10, 20, 30, 0, 0⟩,
    ⟨2016, 7, 1, 10, 20, 31, 0, 0⟩⟩
  obtain ⟨cout, hc⟩ := round_trips_total cenv 0 [[(b!"Accept", [b!"x"])]] q
  obtain ⟨sout, hs⟩ := serves_total senv 0 q [(b!"Span-Id", [b!"1/4/2"])]
  refine ⟨cenv, senv, q, cout, [(b!"Span-Id", [b!"1/4/2"])], sout, _, _, by rfl, hc, fun _ _ => rfl, by decide, rfl, ?_, hs, by decide, rfl,
    fun _ _ => rfl, by decide, rfl, rfl, rfl⟩
  exact hc.2.2.2.1

/-! ## C68: the status the client receives -/

/-- Property C68, in full: the recorded status is the one that the client receives. -/
def StatusReceived : Prop :=
  ∀ (canFlush : Bool) (ops : List WriterOp) (header : Header),
    (((ResponseRecorder.new canFlush).run ops).partialResponse header).statusCode =
      ((ResponseRecorder.new canFlush).run ops).under.status

/-- A handler that writes something, fails and then calls `http.Error`: the client receives 200, and 500 is recorded. -/
theorem late_status_recorded :
    let r := (ResponseRecorder.new true).run [.write b!"partial", .writeHeader 500, .write b!"error"]
    (r.partialResponse []).statusCode = 500 ∧ r.under.status = 200 := by decide

/-- Property C68 is false of the code. -/
theorem status_received_false : ¬ StatusReceived := by
  intro h
  have := h true [.write b!"partial", .writeHeader 500, .write b!"error"] []
  revert this
  decide

/-- Property C68, proved part: for a handler that calls `WriteHeader` at most once, and before it writes or flushes. -/
theorem status_received_partial (canFlush : Bool) (ops : List WriterOp) (header : Header) (h : WellBehaved ops) :
    (((ResponseRecorder.new canFlush).run ops).partialResponse header).statusCode =
      ((ResponseRecorder.new canFlush).run ops).under.status := by
  -- once a status is recorded and sent, calls other than `WriteHeader` change neither
  have stay : ∀ (ops : List WriterOp) (r : ResponseRecorder), codes ops = [] → r.status = r.under.status →
      (r.run ops).status = (r.run ops).under.status := by
    intro ops
    induction ops with
    | nil => intro r _ h; exact h
    | cons op ops ih =>
      intro r hc hr
      rw [show r.run (op :: ops) = (r.step op).run ops from rfl]
      cases op with
      | write b =>
        refine ih _ hc ?_
        rw [show (r.step (.write b)).under.status = r.under.status by
          simp [ResponseRecorder.step, NetWriter.step, NetWriter.status], ← hr]
        simp only [ResponseRecorder.step, ResponseRecorder.status]
        split <;> simp_all
      | writeHeader c => simp [codes] at hc
      | flush =>
        refine ih _ hc ?_
        simp only [ResponseRecorder.step]
        split
        · rw [show (r.under.step .flush).status = r.under.status by simp [NetWriter.step, NetWriter.status]]
          exact hr
        · exact hr
  show ((ResponseRecorder.new canFlush).run ops).status = _
  cases ops with
  | nil => rfl
  | cons op ops =>
    cases op with
    | writeHeader c =>
      obtain ⟨h0, hc⟩ := h
      refine stay ops _ hc ?_
      simp [ResponseRecorder.status, ResponseRecorder.step, ResponseRecorder.new, NetWriter.step, NetWriter.status, h0]
    | write b => exact stay (.write b :: ops) _ h rfl
    | flush => exact stay (.flush :: ops) _ h rfl

example : WellBehaved [.writeHeader 404, .write b!"not found", .flush] := ⟨by decide, rfl⟩

end Appdash
