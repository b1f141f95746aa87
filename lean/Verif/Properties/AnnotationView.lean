import Verif.Proofs.AnnotationView
import Verif.Properties.Store

/-!
# C87: the annotations shown on the pages
-/

namespace Appdash

open Spec

/-- **C87** (stored spans).  Whatever was collected, the full table of a span has one row for each annotation collected for the
span, in the order of collection, except those whose key is empty or begins with an underscore. -/
theorem page_shows_annotations {ops : List StoreOp} {ms : MemStore} (h : MemStore.new.run ops = some ms) {t : ID} {tr : Tree}
    (hv : ms.view t = .found tr) : ∀ sp ∈ tr.spans, verboseRows sp.annotations =
      ((annotationsOf (live t ops) sp.id.span).filter fun a => PublicKey a.key).map fun a => (a.key, a.value.getD []) := by
  intro sp hsp
  rw [verboseRows, filterAnnotations_eq, annotations_complete h hv sp hsp]
  rfl

/-- **C87** (the short table).  The table shown first has, in the same order, exactly the rows whose key some registered event
finds important. -/
theorem short_table {Es : List EventType} {reg : Registry} (h : registerAll Es [] = some reg) (as : List Annotation) :
    shortRows reg as = (verboseRows as).filter fun r => ∃ E ∈ Es, r.1 ∈ E.important := by
  rw [shortRows, verboseRows, List.filter_map]
  congr 2
  funext a
  have := important_iff h a
  cases hi : a.important reg
  · rw [hi] at this
    simp only [Bool.false_eq_true, false_iff] at this
    simp [Function.comp, rowCells, this]
  · simp only [Function.comp, rowCells]
    exact (decide_eq_true (this.1 hi)).symm

/-- **C87** (events).  Every event whose fields have public names is shown completely: the rows are exactly its fields, each once,
and no internal marker. -/
theorem event_shown {E : EventType} {ns : List Bytes} {ts : List GType} (ht : E.type = .struct ns ts) (hm : E.marshaler = none)
    (hn : ∀ n ∈ ns, PublicKey n) {v : GVal} {as : List Annotation} (h : Marshals E v (.ok as)) :
    (verboseRows as).Perm (flatten E.type [] v) := by
  unfold Marshals at h
  rw [hm] at h
  simp only at h
  obtain ⟨kvs, hp, he⟩ := h
  injection he with he
  subst he
  have hpub : ∀ e ∈ kvs, PublicKey e.1 := by
    intro e hek
    have := hp.mem_iff.1 hek
    rw [ht] at this
    exact flatten_public hn e this
  rw [verboseRows, filterAnnotations_eq, List.filter_append]
  have h1 : (kvs.map annotationOf).filter (fun a => PublicKey a.key) = kvs.map annotationOf := by
    rw [List.filter_eq_self]
    intro a ha
    obtain ⟨e, hek, rfl⟩ := List.mem_map.1 ha
    exact decide_eq_true (hpub e hek)
  have h2 : [schemaMarker E.schema].filter (fun a => PublicKey a.key) = [] := by
    simp [schemaMarker, schemaPrefix, PublicKey]
  rw [h1, h2, List.append_nil, List.map_map]
  have h3 : kvs.map (rowCells ∘ annotationOf) = kvs := by
    conv => rhs; rw [← List.map_id kvs]
    apply List.map_congr_left
    intro e _
    rfl
  rw [h3]
  exact hp

/-- **C87** (the library's events).  This holds for all events of the library. -/
theorem library_events_shown : ∀ E ∈ libraryEvents, ∀ (v : GVal) (as : List Annotation), Marshals E v (.ok as) →
    (verboseRows as).Perm (flatten E.type [] v) := by
  intro E hE v as h
  simp only [libraryEvents, List.mem_cons, List.not_mem_nil, or_false] at hE
  rcases hE with rfl | rfl | rfl | rfl | rfl | rfl | rfl | rfl <;>
    exact event_shown rfl rfl (by decide) h

/-- A row of a registered library event among other annotations of a span is in the short table if it is important. -/
theorem important_row {Es : List EventType} {reg : Registry} (hreg : registerAll Es [] = some reg) {E : EventType} (hE : E ∈ Es)
    (hlib : E ∈ libraryEvents) {v : GVal} {as : List Annotation} (h : Marshals E v (.ok as)) {row : KV}
    (hrow : row ∈ flatten E.type [] v) (hi : row.1 ∈ E.important) (before after : List Annotation) :
    row ∈ shortRows reg (before ++ as ++ after) := by
  rw [short_table hreg, List.mem_filter]
  refine ⟨?_, decide_eq_true ⟨E, hE, hi⟩⟩
  have := (library_events_shown E hlib v as h).mem_iff.2 hrow
  simp only [verboseRows, filterAnnotations_eq, List.filter_append, List.map_append, List.mem_append] at this ⊢
  exact .inl (.inr this)

/-- **C87** (status codes).  The response status of a recorded client request is in the short table of its span, whatever else is
recorded on the span. -/
theorem client_status_shown {Es : List EventType} {reg : Registry} (hreg : registerAll Es [] = some reg) (hE : clientEvent ∈ Es)
    {req hs sent recvd : GVal} {len code : Int} {as : List Annotation}
    (h : Marshals clientEvent (.struct [req, .struct [hs, .scalar (.int len), .scalar (.int code)], sent, recvd]) (.ok as))
    (before after : List Annotation) :
    (b!"Client.Response.StatusCode", formatInt code) ∈ shortRows reg (before ++ as ++ after) := by
  refine important_row hreg hE (by simp [libraryEvents]) h ?_ (show b!"Client.Response.StatusCode" ∈ clientEvent.important by decide) before after
  simp only [clientEvent, flatten]
  refine mem_flattenFields_at 1 rfl rfl rfl ?_
  simp only [responseInfoType, flatten]
  exact mem_flattenFields_at 2 rfl rfl rfl (List.mem_singleton.2 rfl)

/-- **C87** (status codes).  Likewise for the server's. -/
theorem server_status_shown {Es : List EventType} {reg : Registry} (hreg : registerAll Es [] = some reg) (hE : serverEvent ∈ Es)
    {req hs route user recvd sent : GVal} {len code : Int} {as : List Annotation}
    (h : Marshals serverEvent (.struct [req, .struct [hs, .scalar (.int len), .scalar (.int code)], route, user, recvd, sent]) (.ok as))
    (before after : List Annotation) :
    (b!"Server.Response.StatusCode", formatInt code) ∈ shortRows reg (before ++ as ++ after) := by
  refine important_row hreg hE (by simp [libraryEvents]) h ?_ (show b!"Server.Response.StatusCode" ∈ serverEvent.important by decide) before after
  simp only [serverEvent, flatten]
  refine mem_flattenFields_at 1 rfl rfl rfl ?_
  simp only [responseInfoType, flatten]
  exact mem_flattenFields_at 2 rfl rfl rfl (List.mem_singleton.2 rfl)

/-- **C87** (queries).  The text and the tag of a recorded SQL query are in the short table. -/
theorem sql_shown {Es : List EventType} {reg : Registry} (hreg : registerAll Es [] = some reg) (hE : sqlEvent ∈ Es)
    {sql tag : Bytes} {sent recvd : GVal} {as : List Annotation}
    (h : Marshals sqlEvent (.struct [.scalar (.string sql), .scalar (.string tag), sent, recvd]) (.ok as))
    (before after : List Annotation) :
    (b!"SQL", sql) ∈ shortRows reg (before ++ as ++ after) ∧ (b!"Tag", tag) ∈ shortRows reg (before ++ as ++ after) := by
  constructor
  · refine important_row hreg hE (by simp [libraryEvents]) h ?_ (show b!"SQL" ∈ sqlEvent.important by decide) before after
    simp only [sqlEvent, flatten]
    exact mem_flattenFields_at 0 rfl rfl rfl (List.mem_singleton.2 rfl)
  · refine important_row hreg hE (by simp [libraryEvents]) h ?_ (show b!"Tag" ∈ sqlEvent.important by decide) before after
    simp only [sqlEvent, flatten]
    exact mem_flattenFields_at 1 rfl rfl rfl (List.mem_singleton.2 rfl)

/-- **C87** (why names must be public).  A field with a name that begins with an underscore is recorded but never shown. -/
theorem private_field_hidden :
    Marshals { schema := b!"x", type := .struct [b!"_id", b!"n"] [tString, tString] } (.struct [.scalar (.string b!"1"), .scalar (.string b!"2")])
      (.ok [⟨b!"_id", some b!"1"⟩, ⟨b!"n", some b!"2"⟩, ⟨b!"_schema:x", none⟩]) ∧
    verboseRows [⟨b!"_id", some b!"1"⟩, ⟨b!"n", some b!"2"⟩, ⟨b!"_schema:x", none⟩] = [(b!"n", b!"2")] :=
  ⟨⟨[(b!"_id", b!"1"), (b!"n", b!"2")], .refl _, rfl⟩, by decide⟩

/-- The library's registry shows exactly the important ones of these rows. -/
example : (registerAll libraryEvents []).map (fun reg => shortRows reg
      [⟨b!"_schema:SQL", none⟩, ⟨b!"SQL", some b!"q"⟩, ⟨b!"Msg", some b!"m"⟩, ⟨[], some b!"e"⟩, ⟨b!"Tag", none⟩,
        ⟨b!"Client.Request.Headers.If-None-Match", some b!"x"⟩]) =
    some [(b!"SQL", b!"q"), (b!"Tag", []), (b!"Client.Request.Headers.If-None-Match", b!"x")] := by decide_cbv

example : Marshals sqlEvent (.struct [.scalar (.string b!"q"), .scalar (.string b!"t"), .scalar (.string b!"?"), .scalar (.string b!"?")])
    (.ok [⟨b!"Tag", some b!"t"⟩, ⟨b!"SQL", some b!"q"⟩, ⟨b!"ClientSend", some b!"?"⟩, ⟨b!"ClientRecv", some b!"?"⟩, ⟨b!"_schema:SQL", none⟩]) :=
  ⟨[(b!"Tag", b!"t"), (b!"SQL", b!"q"), (b!"ClientSend", b!"?"), (b!"ClientRecv", b!"?")], .swap _ _ _, rfl⟩

end Appdash
