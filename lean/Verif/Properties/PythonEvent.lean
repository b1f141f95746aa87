import Verif.Proofs.PythonEvent
import Verif.Properties.Rfc3339

/-!
# The Python client: events and the OpenTracing recorder (C79-C81)

The text of a time is what `timeString` returned; `RFC3339 text t` says which time it denotes.
-/

namespace Appdash.Py

/-! ## C80 -/

/-- **C80**.  The name, message, log, time span and SQL events of the Python client are read by the Go library as events with the
values given in Python, in whatever order Python's dictionary yields the fields, whatever annotations the span had before, and
whatever annotations are added later under other keys. -/
theorem python_name_read (name : Bytes) (own : List Ann) (hm : Marshals (spanName name) own) (before after : List Annotation)
    (hafter : ∀ a ∈ after, a.key ≠ b!"Name") (w : GVal) :
    unmarshalEvent spanNameEvent (before ++ own.map Ann.go ++ after) (.struct [w]) =
      some (.struct [.scalar (.string name)], none) :=
  flat_read spanNameEvent ⟨rfl, rfl⟩ [b!"Name"] [.string] rfl (by decide) (by decide) rfl (by decide) [.string name] [name] rfl rfl
    (by intro i s x y h1 h2 h3; match i with | 0 => cases h1; cases h2; cases h3; rfl)
    _ rfl rfl own hm before after (by simpa using hafter) [w] rfl

theorem python_msg_read (m : Bytes) (own : List Ann) (hm : Marshals (msgEvent m) own) (before after : List Annotation)
    (hafter : ∀ a ∈ after, a.key ≠ b!"Msg") (w : GVal) :
    unmarshalEvent Appdash.msgEvent (before ++ own.map Ann.go ++ after) (.struct [w]) =
      some (.struct [.scalar (.string m)], none) :=
  flat_read Appdash.msgEvent ⟨rfl, rfl⟩ [b!"Msg"] [.string] rfl (by decide) (by decide) rfl (by decide) [.string m] [m] rfl rfl
    (by intro i s x y h1 h2 h3; match i with | 0 => cases h1; cases h2; cases h3; rfl)
    _ rfl rfl own hm before after (by simpa using hafter) [w] rfl

/-- Texts as the Python client writes them. -/
theorem sampleTime (s : Nat) (h : s < 60) :
    Spec.RFC3339 (b!"2016-07-01T10:20:" ++ pad2 s ++ b!"+00:00") ⟨2016, 7, 1, 10, 20, s, 0, 0⟩ := by
  refine ⟨pad4 2016, pad2 7, pad2 1, pad2 10, pad2 20, pad2 s, [], b!"+00:00", ?_, pad4_numeral (by decide), pad2_numeral (by decide),
    pad2_numeral (by decide), pad2_numeral (by decide), pad2_numeral (by decide), pad2_numeral (by omega), Or.inl ⟨rfl, rfl⟩,
    Or.inr ⟨pad2 0, pad2 0, 0, 0, pad2_numeral (by decide), pad2_numeral (by decide), by decide, by decide, Or.inl ⟨by decide, by simp⟩⟩, ?_⟩
  · simp only [List.append_nil, List.append_assoc]
    rfl
  · simp [GoTime.exists, monthLengths]
    omega

theorem python_log_read (m time : Bytes) (t : GoTime) (ht : Spec.RFC3339 time t) (own : List Ann)
    (hm : Marshals (logEvent m time) own) (before after : List Annotation)
    (hafter : ∀ a ∈ after, a.key ≠ b!"Msg" ∧ a.key ≠ b!"Time") (w1 w2 : GVal) :
    unmarshalEvent Appdash.logEvent (before ++ own.map Ann.go ++ after) (.struct [w1, w2]) =
      some (.struct [.scalar (.string m), .scalar (.time t)], none) :=
  flat_read Appdash.logEvent ⟨rfl, rfl⟩ [b!"Msg", b!"Time"] [.string, .time] rfl (by decide) (by decide) rfl (by decide)
    [.string m, .time t] [m, time] rfl rfl
    (by intro i s x y h1 h2 h3
        match i with
        | 0 => cases h1; cases h2; cases h3; rfl
        | 1 => cases h1; cases h2; cases h3; simp [parseScalar, rfc3339_read ht])
    _ rfl rfl own hm before after (by simpa using hafter) [w1, w2] rfl

theorem python_timespan_read (start stop : Bytes) (t u : GoTime) (ht : Spec.RFC3339 start t) (hu : Spec.RFC3339 stop u)
    (own : List Ann) (hm : Marshals (timespan start stop) own) (before after : List Annotation)
    (hafter : ∀ a ∈ after, a.key ≠ b!"Span.Start" ∧ a.key ≠ b!"Span.End") (w1 w2 : GVal) :
    unmarshalEvent Appdash.timespan (before ++ own.map Ann.go ++ after) (.struct [w1, w2]) =
      some (.struct [.scalar (.time t), .scalar (.time u)], none) :=
  flat_read Appdash.timespan ⟨rfl, rfl⟩ [b!"Span.Start", b!"Span.End"] [.time, .time] rfl (by decide) (by decide) rfl (by decide)
    [.time t, .time u] [start, stop] rfl rfl
    (by intro i s x y h1 h2 h3
        match i with
        | 0 => cases h1; cases h2; cases h3; simp [parseScalar, rfc3339_read ht]
        | 1 => cases h1; cases h2; cases h3; simp [parseScalar, rfc3339_read hu])
    _ rfl rfl own hm before after (by simpa using hafter) [w1, w2] rfl

theorem python_sql_read (sql tag send recv : Bytes) (t u : GoTime) (ht : Spec.RFC3339 send t) (hu : Spec.RFC3339 recv u)
    (own : List Ann) (hm : Marshals (sqlEvent sql tag send recv) own) (before after : List Annotation)
    (hafter : ∀ a ∈ after, a.key ≠ b!"SQL" ∧ a.key ≠ b!"Tag" ∧ a.key ≠ b!"ClientSend" ∧ a.key ≠ b!"ClientRecv")
    (w1 w2 w3 w4 : GVal) :
    unmarshalEvent Appdash.sqlEvent (before ++ own.map Ann.go ++ after) (.struct [w1, w2, w3, w4]) =
      some (.struct [.scalar (.string sql), .scalar (.string tag), .scalar (.time t), .scalar (.time u)], none) :=
  flat_read Appdash.sqlEvent ⟨rfl, rfl⟩ [b!"SQL", b!"Tag", b!"ClientSend", b!"ClientRecv"] [.string, .string, .time, .time] rfl
    (by decide) (by decide) rfl (by decide) [.string sql, .string tag, .time t, .time u] [sql, tag, send, recv] rfl rfl
    (by intro i s x y h1 h2 h3
        match i with
        | 0 => cases h1; cases h2; cases h3; rfl
        | 1 => cases h1; cases h2; cases h3; rfl
        | 2 => cases h1; cases h2; cases h3; simp [parseScalar, rfc3339_read ht]
        | 3 => cases h1; cases h2; cases h3; simp [parseScalar, rfc3339_read hu])
    _ rfl rfl own hm before after (by simpa using hafter) [w1, w2, w3, w4] rfl

/-- The fields in another order than in the source, and annotations before and after. -/
example : unmarshalEvent Appdash.logEvent
    ([⟨b!"Msg", some b!"old"⟩] ++ [⟨b!"Time", some b!"2016-07-01T10:20:30+00:00"⟩, ⟨b!"Msg", some b!"hello"⟩, ⟨b!"_schema:log", some []⟩] ++
      [⟨b!"Message", none⟩]) (.struct [.scalar (.string []), .scalar (.time ⟨1, 1, 1, 0, 0, 0, 0, 0⟩)]) =
      some (.struct [.scalar (.string b!"hello"), .scalar (.time ⟨2016, 7, 1, 10, 20, 30, 0, 0⟩)], none) :=
  python_log_read b!"hello" b!"2016-07-01T10:20:30+00:00" _ (sampleTime 30 (by decide))
    [⟨b!"Time", b!"2016-07-01T10:20:30+00:00"⟩, ⟨b!"Msg", b!"hello"⟩, ⟨b!"_schema:log", []⟩]
    ⟨[(b!"Time", b!"2016-07-01T10:20:30+00:00"), (b!"Msg", b!"hello")], List.Perm.swap .., rfl⟩
    [⟨b!"Msg", some b!"old"⟩] [⟨b!"Message", none⟩] (by decide) _ _

/-! ## C81 -/

/-- C81: the route, the user and the times of a Python HTTP server event are read by the Go library. -/
def ServerEventRead : Prop := ∀ (route user recv send : Bytes) (req resp : Dict) (t u : GoTime) (own : List Ann),
  Spec.RFC3339 recv t → Spec.RFC3339 send u → Marshals (httpServerEvent route user recv send req resp) own →
  ∃ rq rs, unmarshalEvent serverEvent (own.map Ann.go) serverEvent.type.zero =
    some (.struct [rq, rs, .scalar (.string route), .scalar (.string user), .scalar (.time t), .scalar (.time u)], none)

/-- C81: the times of a Python HTTP client event are read by the Go library. -/
def ClientEventRead : Prop := ∀ (recv send : Bytes) (req resp : Dict) (t u : GoTime) (own : List Ann),
  Spec.RFC3339 recv t → Spec.RFC3339 send u → Marshals (httpClientEvent recv send req resp) own →
  ∃ rq rs, unmarshalEvent clientEvent (own.map Ann.go) clientEvent.type.zero =
    some (.struct [rq, rs, .scalar (.time u), .scalar (.time t)], none)

/-- **C81**, what the code does: whatever a Python HTTP server event contains, the Go library recognises its schema, reports no
error and reads nothing from it. -/
theorem python_server_event_partial (route user recv send : Bytes) (req resp : Dict) (own : List Ann)
    (hm : Marshals (httpServerEvent route user recv send req resp) own) (vs : List GVal) :
    b!"HTTPServer" ∈ schemas (own.map Ann.go) ∧ unmarshalEvent serverEvent (own.map Ann.go) (.struct vs) = some (.struct vs, none) := by
  have hs := schema_present hm [] []
  simp only [List.nil_append, List.append_nil] at hs
  refine ⟨List.contains_iff_mem.1 hs, ?_⟩
  refine unmarshal_absent serverEvent ⟨rfl, rfl⟩ _ _ rfl ?_ _ hs ?_ vs
  · intro t ht
    simp only [List.mem_cons, List.not_mem_nil, or_false] at ht
    rcases ht with rfl | rfl | rfl | rfl | rfl | rfl
    · exact .inr ⟨_, _, rfl⟩
    · exact .inr ⟨_, _, rfl⟩
    all_goals exact .inl ⟨_, _, rfl⟩
  · intro a ha n hn
    obtain ⟨b, hb, rfl⟩ := List.mem_map.1 ha
    have hk : (b!"Request.").isPrefixOf b.key = true ∨ b.key ∈ [b!"Route", b!"User", b!"ServerRecv", b!"ServerSend", b!"_schema:HTTPServer"] := by
      rcases marshals_keys hm hb with h | h
      · rcases flattenReqRes_keys _ _ h with h | h
        · exact .inl h
        · rcases flattenReqRes_keys _ _ h with h | h
          · exact .inl h
          · simp only [List.mem_cons, List.not_mem_nil, or_false, Prod.mk.injEq] at h
            rcases h with h | h | h | h <;> exact .inr (by simp [h.1])
      · exact .inr (by rw [h]; simp only [httpServerEvent, httpClientEvent]; decide)
    show n.isPrefixOf b.key = false
    rcases hk with h | h
    · simp only [List.mem_cons, List.not_mem_nil, or_false] at hn
      rcases hn with rfl | rfl | rfl | rfl | rfl | rfl <;> exact isPrefixOf_head (by decide) h
    · exact (show ∀ n ∈ [b!"Server.Request", b!"Server.Response", b!"Server.Route", b!"Server.User", b!"Server.Recv", b!"Server.Send"],
        ∀ k ∈ [b!"Route", b!"User", b!"ServerRecv", b!"ServerSend", b!"_schema:HTTPServer"], n.isPrefixOf k = false by decide) n hn _ h

/-- **C81**, what the code does: likewise for HTTP client events. -/
theorem python_client_event_partial (recv send : Bytes) (req resp : Dict) (own : List Ann)
    (hm : Marshals (httpClientEvent recv send req resp) own) (vs : List GVal) :
    b!"HTTPClient" ∈ schemas (own.map Ann.go) ∧ unmarshalEvent clientEvent (own.map Ann.go) (.struct vs) = some (.struct vs, none) := by
  have hs := schema_present hm [] []
  simp only [List.nil_append, List.append_nil] at hs
  refine ⟨List.contains_iff_mem.1 hs, ?_⟩
  refine unmarshal_absent clientEvent ⟨rfl, rfl⟩ _ _ rfl ?_ _ hs ?_ vs
  · intro t ht
    simp only [List.mem_cons, List.not_mem_nil, or_false] at ht
    rcases ht with rfl | rfl | rfl | rfl
    · exact .inr ⟨_, _, rfl⟩
    · exact .inr ⟨_, _, rfl⟩
    all_goals exact .inl ⟨_, _, rfl⟩
  · intro a ha n hn
    obtain ⟨b, hb, rfl⟩ := List.mem_map.1 ha
    have hk : (b!"Request.").isPrefixOf b.key = true ∨ b.key ∈ [b!"ServerRecv", b!"ServerSend", b!"_schema:HTTPClient"] := by
      rcases marshals_keys hm hb with h | h
      · rcases flattenReqRes_keys _ _ h with h | h
        · exact .inl h
        · rcases flattenReqRes_keys _ _ h with h | h
          · exact .inl h
          · simp only [List.mem_cons, List.not_mem_nil, or_false, Prod.mk.injEq] at h
            rcases h with h | h <;> exact .inr (by simp [h.1])
      · exact .inr (by rw [h]; simp only [httpServerEvent, httpClientEvent]; decide)
    show n.isPrefixOf b.key = false
    rcases hk with h | h
    · simp only [List.mem_cons, List.not_mem_nil, or_false] at hn
      rcases hn with rfl | rfl | rfl | rfl <;> exact isPrefixOf_head (by decide) h
    · exact (show ∀ n ∈ [b!"Client.Request", b!"Client.Response", b!"Client.Send", b!"Client.Recv"],
        ∀ k ∈ [b!"ServerRecv", b!"ServerSend", b!"_schema:HTTPClient"], n.isPrefixOf k = false by decide) n hn _ h

/-- **C81**, what the code does: an item of the response info replaces the item of the same name of the request info, so that the
latter is not sent at all. -/
theorem python_response_overwrites_partial (route user recv send : Bytes) (req resp : Dict) (hd : (resp.map Prod.fst).Nodup)
    (k v : Bytes) (hk : k ≠ b!"Headers") (hk' : k ≠ b!"Headers.Headers") (hv : (k, v) ∈ resp) :
    AMap.get (httpServerEvent route user recv send req resp).fields (b!"Request." ++ k) = some v ∧
    AMap.get (httpClientEvent recv send req resp).fields (b!"Request." ++ k) = some v :=
  ⟨flattenReqRes_get resp _ hd hk hk' hv, flattenReqRes_get resp _ hd hk hk' hv⟩

/-- **C81**, what the code does: the route, the user and the times are sent unchanged, once each, whatever the request and
response infos contain; but under names that Go does not look for, and those of a client event under the names of a server's. -/
theorem python_http_carries_partial (route user recv send : Bytes) (req resp : Dict) :
    (∀ own, Marshals (httpServerEvent route user recv send req resp) own →
      ∀ kv ∈ [(b!"Route", route), (b!"User", user), (b!"ServerRecv", recv), (b!"ServerSend", send)],
        ∀ w, (⟨kv.1, w⟩ : Ann) ∈ own ↔ w = kv.2) ∧
    (∀ own, Marshals (httpClientEvent recv send req resp) own →
      ∀ kv ∈ [(b!"ServerRecv", recv), (b!"ServerSend", send)], ∀ w, (⟨kv.1, w⟩ : Ann) ∈ own ↔ w = kv.2) := by
  have key : ∀ (e : PyEvent) (own : List Ann) (k w : Bytes), Marshals e own → (b!"_schema:").isPrefixOf k = false →
      ((⟨k, w⟩ : Ann) ∈ own ↔ (k, w) ∈ e.fields) := by
    rintro e own k w ⟨items, hp, rfl⟩ hk
    rw [← hp.mem_iff]
    simp only [List.mem_append, List.mem_map, Ann.mk.injEq, List.mem_singleton]
    constructor
    · rintro (⟨kv, h, rfl, rfl⟩ | ⟨rfl, -⟩)
      · exact h
      · exact Bool.noConfusion (hk.symm.trans (isPrefixOf_append.2 ⟨e.schema, rfl⟩))
    · intro h; exact .inl ⟨_, h, rfl, rfl⟩
  refine ⟨fun own hm kv hkv w => ?_, fun own hm kv hkv w => ?_⟩
  · simp only [List.mem_cons, List.not_mem_nil, or_false] at hkv
    rcases hkv with rfl | rfl | rfl | rfl <;>
      rw [key _ _ _ _ hm rfl, httpServerEvent, flattenReqRes_others _ _ rfl,
        flattenReqRes_others _ _ rfl] <;> simp
  · simp only [List.mem_cons, List.not_mem_nil, or_false] at hkv
    rcases hkv with rfl | rfl <;>
      rw [key _ _ _ _ hm rfl, httpClientEvent, flattenReqRes_others _ _ rfl,
        flattenReqRes_others _ _ rfl] <;> simp

/-- An event with the fields of the example in event.py. -/
def pyServer : PyEvent :=
  httpServerEvent b!"/endpoint-B" b!"u" b!"2016-07-01T10:20:30+00:00" b!"2016-07-01T10:20:31+00:00"
    [(b!"Method", b!"GET"), (b!"ContentLength", b!"0")] [(b!"Method", b!"GET"), (b!"ContentLength", b!"28")]

/-- C81 is false of the code. -/
theorem python_server_event_not_read : ¬ ServerEventRead := by
  intro h
  obtain ⟨rq, rs, hh⟩ := h b!"/endpoint-B" b!"u" b!"2016-07-01T10:20:30+00:00" b!"2016-07-01T10:20:31+00:00" [] []
    ⟨2016, 7, 1, 10, 20, 30, 0, 0⟩ ⟨2016, 7, 1, 10, 20, 31, 0, 0⟩ _ (sampleTime 30 (by decide)) (sampleTime 31 (by decide)) ⟨_, List.Perm.refl _, rfl⟩
  have := (python_server_event_partial _ _ _ _ _ _ _ ⟨_, List.Perm.refl _, rfl⟩ _).2.symm.trans hh
  simp only [Option.some.injEq, Prod.mk.injEq, and_true, GVal.struct.injEq, zeros, List.cons.injEq] at this
  exact absurd this.2.2.1 (by intro e; cases e)

theorem python_client_event_not_read : ¬ ClientEventRead := by
  intro h
  obtain ⟨rq, rs, hh⟩ := h b!"2016-07-01T10:20:30+00:00" b!"2016-07-01T10:20:31+00:00" [] []
    ⟨2016, 7, 1, 10, 20, 30, 0, 0⟩ ⟨2016, 7, 1, 10, 20, 31, 0, 0⟩ _ (sampleTime 30 (by decide)) (sampleTime 31 (by decide)) ⟨_, List.Perm.refl _, rfl⟩
  have := (python_client_event_partial _ _ _ _ _ ⟨_, List.Perm.refl _, rfl⟩ _).2.symm.trans hh
  simp only [Option.some.injEq, Prod.mk.injEq, and_true, GVal.struct.injEq, zeros, List.cons.injEq] at this
  exact absurd this.2.2.1 (by intro e; cases e)

/-- The content length 0 of the request is not among the fields of the event. -/
example : (b!"Request.ContentLength", b!"28") ∈ pyServer.fields ∧ (b!"Request.ContentLength", b!"0") ∉ pyServer.fields := by decide

/-! ## C79 -/

/-- C79: recording a sampled span does not raise an exception, and each of its tags and baggage items is collected. -/
def RecordsEverything : Prop := ∀ sp r, sp.sampled = true → Records sp r →
  r.2 = false ∧ ∀ k s, (k, Value.str s) ∈ sp.tags.getD [] ++ sp.baggage.getD [] → ∃ p ∈ r.1, (⟨k, s⟩ : Ann) ∈ p.2

/-- A span like those that basictracer makes. -/
def otSpan (tags baggage : Option (List (Bytes × Value))) : OTSpan :=
  { sampled := true, trace := 1, span := 2, parent := some 1, operation := b!"op", start := b!"2016-07-01T10:20:30+00:00",
    stop := b!"2016-07-01T10:20:31+00:00", tags, baggage }

/-- C79 is false of the code: a baggage item makes recording fail... -/
theorem python_baggage_fails : ¬ RecordsEverything := by
  intro h
  exact absurd (h (otSpan none (some [(b!"k", .str b!"v")])) _ rfl ⟨_, _, ⟨_, List.Perm.refl _, rfl⟩, ⟨_, List.Perm.refl _, rfl⟩, rfl⟩).1 (by decide)

/-- ... and so does a tag whose value is not a string, such as `http.status_code = 200`. -/
theorem python_tag_fails (r : List Packet × Bool)
    (hr : Records (otSpan (some [(b!"http.status_code", .other), (b!"k", .str b!"v")]) none) r) :
    r.2 = true ∧ ∀ p ∈ r.1, (⟨b!"k", b!"v"⟩ : Ann) ∉ p.2 := by
  obtain ⟨name, times, h1, h2, rfl⟩ := hr
  refine ⟨rfl, ?_⟩
  intro p hp hmem
  simp only [otSpan, Option.getD_some, recordTags, if_true, List.append_nil, List.mem_cons, List.not_mem_nil, or_false] at hp
  rcases hp with rfl | rfl
  · rcases marshals_keys h1 hmem with h | h
    · simp [spanName] at h
    · exact absurd h (by decide)
  · rcases marshals_keys h2 hmem with h | h
    · simp [timespan] at h
    · exact absurd h (by decide)

/-- **C79**, the part that holds: a span that is not sampled is not recorded. -/
theorem python_unsampled_partial (sp : OTSpan) (h : sp.sampled = false) (r : List Packet × Bool) (hr : Records sp r) :
    r = ([], false) := by
  simpa [Records, h] using hr

/-- **C79**, the part that holds: a sampled span without baggage whose tags are strings is recorded without an exception, under
its own ID; the server gets its name, its times, and every tag.  (A tag may not have the key of one of the times.) -/
theorem python_recorded_partial (sp : OTSpan) (h : sp.sampled = true) (hb : sp.baggage.getD [] = [])
    (hstr : ∀ kv ∈ sp.tags.getD [], ∃ s, kv.2 = .str s)
    (hkey : ∀ kv ∈ sp.tags.getD [], kv.1 ≠ b!"Span.Start" ∧ kv.1 ≠ b!"Span.End")
    (r : List Packet × Bool) (hr : Records sp r) (t u : GoTime) (ht : Spec.RFC3339 sp.start t)
    (hu : Spec.RFC3339 sp.stop u) (w1 w2 : GVal) :
    r.2 = false ∧ (∀ p ∈ r.1, p.1 = ⟨sp.trace, sp.span, sp.parent.getD 0⟩) ∧
    annotationsName (r.1.flatMap fun p => (goCall p).2) = sp.operation ∧
    unmarshalEvent Appdash.timespan (r.1.flatMap fun p => (goCall p).2) (.struct [w1, w2]) =
      some (.struct [.scalar (.time t), .scalar (.time u)], none) ∧
    (∀ k s, (k, Value.str s) ∈ sp.tags.getD [] → (⟨k, some s⟩ : Annotation) ∈ r.1.flatMap fun p => (goCall p).2) := by
  simp only [Records, h, Bool.true_eq_false, if_false, hb] at hr
  obtain ⟨name, times, h1, h2, rfl⟩ := hr
  obtain ⟨q1, q2, q3, q4⟩ := recordTags_ok { trace := sp.trace, span := sp.span, parent := sp.parent.getD 0 } hstr
  simp only [q1, Bool.false_eq_true, if_false, recordBaggage, List.append_nil, List.flatMap_cons]
  refine ⟨trivial, ?_, ?_, ?_, ?_⟩
  · intro p hp
    simp only [List.mem_cons] at hp
    rcases hp with rfl | rfl | hp
    · rfl
    · rfl
    · exact q2 p hp
  · obtain ⟨items, hperm, rfl⟩ := h1
    have : items = [(b!"Name", sp.operation)] := by simpa [spanName] using hperm
    subst this
    rfl
  · rw [← List.append_assoc]
    refine python_timespan_read sp.start sp.stop t u ht hu times h2 (name.map Ann.go) _ ?_ w1 w2
    intro a ha
    obtain ⟨k, s, hks, rfl⟩ := q4 a ha
    exact hkey _ hks
  · intro k s hks
    simp only [List.mem_append]
    exact .inr (.inr (q3 k s hks))

/-- Such a span. -/
example : ∃ r, Records (otSpan (some [(b!"a", .str b!"1"), (b!"b", .str b!"2")]) (some [])) r ∧
    Spec.RFC3339 (otSpan none none).start ⟨2016, 7, 1, 10, 20, 30, 0, 0⟩ :=
  ⟨_, ⟨_, _, ⟨_, List.Perm.refl _, rfl⟩, ⟨_, List.Perm.refl _, rfl⟩, rfl⟩, sampleTime 30 (by decide)⟩

end Appdash.Py
