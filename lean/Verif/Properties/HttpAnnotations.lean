import Verif.Properties.Http

/-!
# C45, continued: the annotations of HTTP spans, key by key
-/

namespace Appdash

namespace Spec

/-- The rows for a request; `side` is `Client` or `Server`. -/
def requestRows (side : Bytes) (r : Request) (headers : AMap Bytes Bytes) : List (Bytes × Bytes) :=
  [(side ++ b!".Request.Method", r.method), (side ++ b!".Request.URI", r.uri), (side ++ b!".Request.Proto", r.proto)] ++
  headers.map (fun e => (side ++ b!".Request.Headers." ++ e.1, e.2)) ++
  [(side ++ b!".Request.Host", r.host), (side ++ b!".Request.RemoteAddr", r.remoteAddr),
    (side ++ b!".Request.ContentLength", formatInt r.contentLength)]

/-- The rows for a response. -/
def responseRows (side : Bytes) (headers : AMap Bytes Bytes) (length status : Int) : List (Bytes × Bytes) :=
  headers.map (fun e => (side ++ b!".Response.Headers." ++ e.1, e.2)) ++
  [(side ++ b!".Response.ContentLength", formatInt length), (side ++ b!".Response.StatusCode", formatInt status)]

/-- The text of a time in an annotation. -/
def timeText (t : GoTime) : Bytes := (Scalar.time t).text

end Spec
open Spec

theorem flatten_requestInfo (pre : Bytes) (hp : pre ≠ []) (r : Request) (m : AMap Bytes Bytes) :
    flatten requestInfoType (pre ++ b!".Request") (requestInfo r m) = requestRows pre r m := by
  have hne : pre ++ b!".Request" ≠ [] := by simp
  simp [requestInfoType, requestInfo, flatten, flattenFields, flattenMap, requestRows, gString, gStrings, nest, tString, tInt, Scalar.text,
    Function.comp_def]

theorem flatten_responseInfo (pre : Bytes) (m : AMap Bytes Bytes) (len st : Int) :
    flatten responseInfoType (pre ++ b!".Response") (.struct [gStrings m, .scalar (.int len), .scalar (.int st)]) = responseRows pre m len st := by
  simp [responseInfoType, flatten, flattenFields, flattenMap, responseRows, gStrings, nest, tInt, Scalar.text, Function.comp_def]

theorem recorded_annotations {env : RecEnv} {span : SpanID} {name : Option Bytes} {E : EventType} (hE : E.marshaler = none) {v : GVal} {r : Recorder}
    (h : RecordsEvent env span name E v r) (ha : ∀ calls call, env.answer calls call = none) :
    ∃ as, r.calls = [(span, as)] ∧
      as.Perm ((match name with
        | none => []
        | some s => [⟨b!"Name", some s⟩, ⟨b!"_schema:name", none⟩]) ++
        (flatten E.type [] v).map (fun e => ⟨e.1, some e.2⟩) ++ [⟨b!"_schema:" ++ E.schema, none⟩]) := by
  obtain ⟨ops, eventAs, h1, h2, rfl⟩ := h
  have one := fun (before : List RecOp) (hb : ∀ op ∈ before, ∃ as, op = RecOp.event (.ok as)) =>
    recorder_once env false span before [] (fun as hm => by
        obtain ⟨_, h⟩ := hb _ (by simpa using hm); cases h)
      (fun err hm => by obtain ⟨_, h⟩ := hb _ (by simpa using hm); cases h)
      (by
        rw [List.any_eq_false]
        intro op hop
        obtain ⟨as, rfl⟩ := hb op hop
        simp [Spec.isFinish]) rfl (ha _ _)
  rw [Marshals, hE] at h2
  obtain ⟨kvs, hk, h2⟩ := h2
  injection h2 with h2
  have hev : eventAs.Perm ((flatten E.type [] v).map (fun e => ⟨e.1, some e.2⟩) ++ [⟨b!"_schema:" ++ E.schema, none⟩]) := by
    rw [h2]
    exact (hk.map _).append_right _
  cases name with
  | none =>
    simp only at h1
    subst h1
    refine ⟨eventAs, ?_, by simpa using hev⟩
    have := one [.event (.ok eventAs)] (by simp)
    simpa [Spec.eventAnnotations] using this
  | some s =>
    simp only at h1
    obtain ⟨as, h1, rfl⟩ := h1
    obtain ⟨kvs', hk', h1⟩ := h1
    injection h1 with h1
    refine ⟨as ++ eventAs, ?_, ?_⟩
    · have := one [.event (.ok as), .event (.ok eventAs)] (by simp)
      simpa [Spec.eventAnnotations] using this
    · have hk2 : kvs' = [(b!"Name", s)] := List.perm_singleton.1 hk'
      rw [h1, hk2, List.append_assoc ([⟨b!"Name", some s⟩, ⟨b!"_schema:name", none⟩] : List Annotation)]
      exact hev.append_left ([⟨b!"Name", some s⟩, ⟨b!"_schema:name", none⟩] : List Annotation)

/-- **C45** (key by key).  What the client's span gets: its name, if it is set, the data of the request and of the response, the status -1 if there is none,
and the times, each under its key, and nothing else. -/
theorem client_annotations (env : ClientEnv) (n : Nat) (heap : HeaderHeap) (original : Request) (out : ClientRun)
    (h : RoundTrips env n heap original out) (ha : ∀ calls call, env.collector.answer calls call = none) :
    ∃ as reqHeaders respRows, out.recorder.calls = [(out.recorder.span, as)] ∧ RedactsTo env.red out.sentHeader original.trailer reqHeaders ∧
      (match out.result with
        | .error _ => respRows = responseRows b!"Client" [] 0 (-1)
        | .ok resp => ∃ hs, RedactsTo env.red resp.header resp.trailer hs ∧ respRows = responseRows b!"Client" hs resp.contentLength resp.statusCode) ∧
      as.Perm ((if env.setName then [⟨b!"Name", some (b!"Request " ++ original.urlHost)⟩, ⟨b!"_schema:name", none⟩] else []) ++
        (requestRows b!"Client" original reqHeaders ++ respRows ++
          [(b!"Client.Send", timeText env.sendTime), (b!"Client.Recv", timeText env.recvTime)]).map (fun e => ⟨e.1, some e.2⟩) ++
        [⟨b!"_schema:HTTPClient", none⟩]) := by
  obtain ⟨h1, h2, h3, hres, _, reqHeaders, respInfo, hreq, hresp, hrec⟩ := h
  obtain ⟨as, hc, hp⟩ := recorded_annotations rfl hrec ha
  have hspan := recordsEvent_span hrec
  have hq : flatten requestInfoType b!"Client.Request" (requestInfo (cloneRequest heap original).2 reqHeaders) = requestRows b!"Client" original reqHeaders :=
    flatten_requestInfo b!"Client" (by simp) _ _
  have hname : (if env.setName then some (b!"Request " ++ (cloneRequest heap original).2.urlHost) else none) =
      if env.setName then some (b!"Request " ++ original.urlHost) else none := rfl
  refine ⟨as, reqHeaders, flatten responseInfoType b!"Client.Response" respInfo, by rw [hspan]; exact hc, by rw [h3]; exact hreq, ?_, ?_⟩
  · rw [← hres] at hresp
    cases ho : out.result with
    | error e =>
      rw [ho] at hresp
      rw [show respInfo = statusOnly (-1) from hresp]
      exact flatten_responseInfo b!"Client" [] 0 (-1)
    | ok resp =>
      rw [ho] at hresp
      obtain ⟨m, hm, rfl⟩ := hresp
      exact ⟨m, hm, flatten_responseInfo b!"Client" m _ _⟩
  · have hfl : flatten clientEvent.type [] (.struct [requestInfo (cloneRequest heap original).2 reqHeaders, respInfo, .scalar (.time env.sendTime),
        .scalar (.time env.recvTime)]) = requestRows b!"Client" original reqHeaders ++ flatten responseInfoType b!"Client.Response" respInfo ++
          [(b!"Client.Send", timeText env.sendTime), (b!"Client.Recv", timeText env.recvTime)] := by
      rw [← hq]
      simp [clientEvent, flatten, flattenFields, nest, tTime, timeText]
    replace hp : as.Perm ((match if env.setName then some (b!"Request " ++ original.urlHost) else none with
        | none => []
        | some s => [⟨b!"Name", some s⟩, ⟨b!"_schema:name", none⟩]) ++
        (flatten clientEvent.type [] (.struct [requestInfo (cloneRequest heap original).2 reqHeaders, respInfo, .scalar (.time env.sendTime),
          .scalar (.time env.recvTime)])).map (fun e => ⟨e.1, some e.2⟩) ++ [⟨b!"_schema:HTTPClient", none⟩]) := hp
    rw [hfl] at hp
    cases hs : env.setName with
    | true => rw [hs] at hp; exact hp
    | false => rw [hs] at hp; exact hp

/-- **C45** (key by key).  What the server's span gets: its name, the data of the request (as it was, or as the handler left it) and of the response, the
route and the user if the functions for them are set, and the times, each under its key, and nothing else. -/
theorem server_annotations (env : ServerEnv) (n : Nat) (r : Request) (h : Header) (out : ServerRun) (hs : Serves env n r h out) (id : SpanID)
    (hid : getSpanID env.src n h = (some id, none)) (run : HandlerRun) (hnext : env.next r h id = some run)
    (ha : ∀ calls call, env.collector.answer calls call = none) (h0 : 0 ∉ codes run.ops) :
    ∃ rec as q qh reqHeaders respHeaders route, out.recorder = some rec ∧ rec.calls = [(id, as)] ∧
      ((q = r ∧ qh = h) ∨ (q = run.request ∧ qh = run.requestHeader)) ∧ RedactsTo env.red qh q.trailer reqHeaders ∧
      RedactsTo env.red (AMap.set run.header b!"Span-Id" [id.toText]) [] respHeaders ∧
      route = (env.routeName.map fun f => f run.request run.requestHeader).getD [] ∧
      as.Perm ([⟨b!"Name", some (b!"Serve " ++ if route = [] then run.request.urlHost ++ run.request.urlPath else route)⟩, ⟨b!"_schema:name", none⟩] ++
        (requestRows b!"Server" q reqHeaders ++ responseRows b!"Server" respHeaders (written run.ops).length ((codes run.ops).getLastD 200) ++
          [(b!"Server.Route", route), (b!"Server.User", (env.currentUser.map fun f => f run.request run.requestHeader).getD []),
            (b!"Server.Recv", timeText env.recvTime), (b!"Server.Send", timeText env.sendTime)]).map (fun e => ⟨e.1, some e.2⟩) ++
        [⟨b!"_schema:HTTPServer", none⟩]) := by
  have hg : (getSpanIDFrom env.src n h).spanID = some id := congrArg Prod.fst hid
  simp only [Serves, hg, hnext] at hs
  obtain ⟨_, _, _, _, hwr, reqInfo, respHeaders, rec, hreq, hresp, hrec, hout⟩ := hs
  have hreq' : ∃ q qh m, ((q = r ∧ qh = h) ∨ (q = run.request ∧ qh = run.requestHeader)) ∧ RedactsTo env.red qh q.trailer m ∧
      reqInfo = requestInfo q m := by
    split at hreq
    · obtain ⟨m, h1, h2⟩ := hreq
      exact ⟨r, h, m, .inl ⟨rfl, rfl⟩, h1, h2⟩
    · obtain ⟨m, h1, h2⟩ := hreq
      exact ⟨_, _, m, .inr ⟨rfl, rfl⟩, h1, h2⟩
  obtain ⟨q, qh, m, hq, hm, rfl⟩ := hreq'
  have hrt : callIfSet env.routeName run.request run.requestHeader = (env.routeName.map fun f => f run.request run.requestHeader).getD [] := by
    unfold callIfSet
    cases env.routeName <;> rfl
  have hus : callIfSet env.currentUser run.request run.requestHeader = (env.currentUser.map fun f => f run.request run.requestHeader).getD [] := by
    unfold callIfSet
    cases env.currentUser <;> rfl
  rw [hrt, hus] at hrec
  have hlen := (recorded_length env.canFlush run.ops (setSpanIDHeader run.header id)).1
  have hst := recorded_status env.canFlush run.ops (setSpanIDHeader run.header id) h0
  rw [← hwr] at hlen hst
  obtain ⟨as, hc, hp⟩ := recorded_annotations rfl hrec ha
  have hset : setSpanIDHeader run.header id = AMap.set run.header b!"Span-Id" [id.toText] := by
    simp only [setSpanIDHeader, Header.put, canonical_spanID]
  refine ⟨rec, as, q, qh, m, respHeaders, _, hout, hc, hq, hm, by rw [← hset]; exact hresp, rfl, ?_⟩
  generalize (env.routeName.map fun f => f run.request run.requestHeader).getD [] = route at *
  generalize (env.currentUser.map fun f => f run.request run.requestHeader).getD [] = user at *
  have hfl : flatten serverEvent.type [] (.struct [requestInfo q m,
        responseInfo (out.writer.partialResponse (setSpanIDHeader run.header id)) respHeaders, gString route, gString user,
        .scalar (.time env.recvTime), .scalar (.time env.sendTime)]) =
      requestRows b!"Server" q m ++ responseRows b!"Server" respHeaders (written run.ops).length ((codes run.ops).getLastD 200) ++
        [(b!"Server.Route", route), (b!"Server.User", user), (b!"Server.Recv", timeText env.recvTime), (b!"Server.Send", timeText env.sendTime)] := by
    rw [← flatten_requestInfo b!"Server" (by simp), ← flatten_responseInfo b!"Server", ← hlen, ← hst]
    simp [serverEvent, flatten, flattenFields, nest, tTime, tString, timeText, responseInfo, gString, Scalar.text]
  rw [hfl] at hp
  by_cases hr : route = []
  · simpa [hr, serverEvent] using hp
  · simpa [hr, serverEvent] using hp

/-- The hypotheses are met: a request from 10.0.0.1 to the host h, for a server whose handler answers 404. -/
example : ∃ (env : ServerEnv) (r : Request) (h : Header) (out : ServerRun) (id : SpanID) (run : HandlerRun), Serves env 0 r h out ∧
    getSpanID env.src 0 h = (some id, none) ∧ env.next r h id = some run ∧ (∀ calls call, env.collector.answer calls call = none) ∧
    0 ∉ codes run.ops ∧ r.host = b!"h" ∧ r.remoteAddr = b!"10.0.0.1:99" ∧ codes run.ops = [404] := by
  let r : Request := ⟨b!"GET", b!"/a", b!"h", b!"/a", b!"HTTP/1.1", b!"h", b!"10.0.0.1:99", 0, 0, []⟩
  let run : HandlerRun := ⟨[.writeHeader 404, .write b!"no"], [], r, []⟩
  let env : ServerEnv := ⟨⟨[], fun _ _ => false⟩, ⟨fun _ _ => none, fun _ _ _ => []⟩, fun _ => 1, none, none, fun _ _ _ => some run, true, .zero, .zero⟩
  obtain ⟨out, ho⟩ := serves_total env 0 r [(b!"Span-Id", [SpanID.toText ⟨1, 4, 2⟩])]
  exact ⟨env, r, _, out, ⟨1, 4, 2⟩, run, ho, by decide, rfl, fun _ _ => rfl, by decide, rfl, rfl, rfl⟩

/-- A round trip whose transport fails meets the hypotheses of `client_annotations`. -/
example : ∃ (env : ClientEnv) (heap : HeaderHeap) (q : Request) (out : ClientRun), RoundTrips env 0 heap q out ∧
    (∀ calls call, env.collector.answer calls call = none) ∧ ∃ e, out.result = .error e := by
  let env : ClientEnv := ⟨⟨1, 2, 0⟩, true, ⟨[], fun _ _ => false⟩, ⟨fun _ _ => none, fun _ _ _ => []⟩, fun i => 3 + i.toUInt64,
    fun _ _ => .error b!"refused", .zero, .zero⟩
  obtain ⟨out, ho⟩ := round_trips_total env 0 [[]] ⟨b!"GET", b!"/a", b!"h", b!"/a", b!"HTTP/1.1", b!"h", b!"10.0.0.1:99", 0, 0, []⟩
  exact ⟨env, _, _, out, ho, fun _ _ => rfl, b!"refused", ho.2.2.2.1⟩

end Appdash
