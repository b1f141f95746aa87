import Verif.Proofs.Server

/-! # Properties C08, C09, C11: the collector protocol and the server -/

namespace Appdash

/-! ## C08 -/

/-- C08: the packet for any span ID and any annotations (whose encoding has a length Go can represent) decodes to the
same span ID and the same annotations; `none` values (nil) and empty values stay distinct. -/
theorem packet_roundtrip (id : SpanID) (as : List Annotation)
    (hlen : (marshal (newCollectPacket id as)).length < 2 ^ 63) :
    ∃ p, unmarshal (marshal (newCollectPacket id as)) = some p ∧ spanIDFromWire p.spanid = some id ∧
      annotationsFromWire p.annotation = some as :=
  ⟨_, unmarshal_marshal id as (fitsInt_of_limit (id, as) hlen), rfl, annotationsFromWire_wire as⟩

/-- C08: a packet within the message size limit, sent alone, makes the server call its collector once, with the same
arguments. -/
theorem packet_arrives (id : SpanID) (as : List Annotation) (hlen : WithinLimit (id, as)) :
    handleConn acceptAll (frameOf (id, as)) = ([(id, as)], .closed) := by
  have := handleConn_frame (id, as) [] acceptAll [] hlen ((frameOf (id, as)).length + 1) (by simp)
  rw [List.append_nil] at this
  unfold handleConn
  rw [this]
  simp [acceptAll, handleLoop_nil]

/-- C08: different collections have different encodings. -/
theorem packet_injective (d d' : Delivery) (h : (marshal (newCollectPacket d.1 d.2)).length < 2 ^ 63)
    (he : marshal (newCollectPacket d.1 d.2) = marshal (newCollectPacket d'.1 d'.2)) : d = d' := by
  have h1 := unmarshal_marshal d.1 d.2 (fitsInt_of_limit d h)
  have h2 := unmarshal_marshal d'.1 d'.2 (fitsInt_of_limit d' (by rw [← he]; exact h))
  rw [he, h2] at h1
  have e : newCollectPacket d'.1 d'.2 = newCollectPacket d.1 d.2 := by simpa using h1
  have e1 : some d'.1 = some d.1 := congrArg (fun p : WPacket => spanIDFromWire p.spanid) e
  have e2 : annotationsFromWire (annotationsWire d'.2) = annotationsFromWire (annotationsWire d.2) :=
    congrArg (fun p : WPacket => annotationsFromWire p.annotation) e
  rw [annotationsFromWire_wire, annotationsFromWire_wire] at e2
  simp only [Option.some.injEq] at e1 e2
  exact (Prod.ext e1 e2).symm

/-- The bytes of an actual packet: a group for the span ID, groups for the annotations, nil and empty values. -/
example : marshal (newCollectPacket ⟨1, 2, 3⟩ [⟨b!"k", some b!"v"⟩, ⟨b!"k", none⟩, ⟨b!"", some b!""⟩]) =
    [0x0b, 0x11, 1, 0, 0, 0, 0, 0, 0, 0, 0x19, 2, 0, 0, 0, 0, 0, 0, 0, 0x21, 3, 0, 0, 0, 0, 0, 0, 0, 0x0c,
     0x2b, 0x32, 1, 0x6b, 0x3a, 1, 0x76, 0x2c, 0x2b, 0x32, 1, 0x6b, 0x2c, 0x2b, 0x32, 0, 0x3a, 0, 0x2c] := by
  decide

/-! ## C09 -/

/-- C09: cut the bytes of packets `ds` after `k` bytes.  The server's collector receives the first `m` packets, where
`m` is the number of packets whose bytes arrived completely, and the handler does not panic. -/
theorem truncated_stream (ds : List Delivery) (hds : ∀ d ∈ ds, WithinLimit d) (k : Nat) :
    ∃ m ≤ ds.length, (handleConn acceptAll ((sent ds).take k)).1 = ds.take m ∧
      (sent (ds.take m)).length ≤ k ∧ (m < ds.length → k < (sent (ds.take (m + 1))).length) ∧
      ((handleConn acceptAll ((sent ds).take k)).2 = .closed ∨ (handleConn acceptAll ((sent ds).take k)).2 = .readError) := by
  obtain ⟨m, hm, part, h1, h2, h3⟩ := take_sent ds k
  have hin : ∀ d ∈ ds.take m, WithinLimit d := fun d hd => hds d (List.mem_of_mem_take hd)
  have e : handleConn acceptAll ((sent ds).take k) = handleLoop acceptAll (part.length + 1) (ds.take m) part := by
    rw [h1]; unfold handleConn
    rw [handleLoop_sent _ hin]; rfl
  refine ⟨m, hm, ?_⟩
  rw [e]
  rcases h3 with ⟨rfl, rfl⟩ | ⟨d, hd, hp, hne, hk⟩
  · rw [handleLoop_nil]
    exact ⟨rfl, h2, by omega, .inl rfl⟩
  · rcases handleLoop_part (rejects := acceptAll) d (hds d (List.mem_of_getElem? hd)) part hp hne part.length (ds.take m) with h | h
      <;> rw [h]
    · exact ⟨rfl, h2, fun _ => hk, .inl rfl⟩
    · exact ⟨rfl, h2, fun _ => hk, .inr rfl⟩

/-- C09: if the server's collector fails at some point, it has still received a prefix of the packets sent. -/
theorem truncated_stream_rejecting (ds : List Delivery) (hds : ∀ d ∈ ds, WithinLimit d) (k : Nat)
    (rejects : List Delivery → Delivery → Bool) : (handleConn rejects ((sent ds).take k)).1 <+: ds := by
  obtain ⟨m, -, h, -⟩ := truncated_stream ds hds k
  have := (handleLoop_rejects (rejects := rejects) (((sent ds).take k).length + 1) [] ((sent ds).take k)).1
  unfold handleConn at h ⊢
  rw [h] at this
  exact this.trans (List.take_prefix _ _)

/-- Two packets, cut one byte before the end: only the first arrives. -/
example : (∀ d ∈ ([(⟨1, 2, 0⟩, [⟨b!"a", some b!"x"⟩]), (⟨1, 3, 2⟩, [])] : List Delivery), WithinLimit d) ∧
    handleConn acceptAll ((sent [(⟨1, 2, 0⟩, [⟨b!"a", some b!"x"⟩]), (⟨1, 3, 2⟩, [])]).take 67) =
      ([(⟨1, 2, 0⟩, [⟨b!"a", some b!"x"⟩])], .readError) ∧
    handleConn acceptAll ((sent [(⟨1, 2, 0⟩, [⟨b!"a", some b!"x"⟩]), (⟨1, 3, 2⟩, [])]).take 68) =
      ([(⟨1, 2, 0⟩, [⟨b!"a", some b!"x"⟩]), (⟨1, 3, 2⟩, [])], .closed) := by decide

/-! ## C11 -/

/-- The full statement of C11: no byte stream makes the server panic. -/
def ServerSurvives : Prop :=
  ∀ (rejects : List Delivery → Delivery → Bool) (s : Bytes), (handleConn rejects s).2 ≠ .panicked

/-- C11 is false of the code: a packet without the optional `parent` field, valid protocol buffers, makes
`spanIDFromWire` dereference a nil pointer. -/
theorem server_panics : ¬ ServerSurvives := by
  intro h
  exact h acceptAll [20, 0x0b, 0x11, 1, 0, 0, 0, 0, 0, 0, 0, 0x19, 2, 0, 0, 0, 0, 0, 0, 0, 0x0c] (by decide)

/-- C11, the part that holds: only a decodable packet without a parent makes the server panic (`s'` is the stream from
the start of that packet on). -/
theorem server_survives_partial (rejects : List Delivery → Delivery → Bool) (s : Bytes)
    (h : ∀ s' p rest w, s' <:+ s → readMsg s' = .ok p rest → p.spanid = some w → w.parent.isSome) :
    (handleConn rejects s).2 ≠ .panicked := by
  intro hp
  obtain ⟨s', p, rest, w, h1, h2, h3, h4⟩ := handleLoop_panics _ _ _ hp
  have := h s' p rest w h1 h2 h3
  rw [h4] at this
  cases this

/-- C11, the part that holds: the streams of `RemoteCollector` clients (packets within the limit, cut anywhere) never
make the server panic. -/
theorem server_survives_own_clients_partial (rejects : List Delivery → Delivery → Bool) (ds : List Delivery)
    (hds : ∀ d ∈ ds, WithinLimit d) (k : Nat) : (handleConn rejects ((sent ds).take k)).2 ≠ .panicked := by
  intro hp
  obtain ⟨m, -, -, -, -, h⟩ := truncated_stream ds hds k
  have := (handleLoop_rejects (rejects := rejects) (((sent ds).take k).length + 1) [] ((sent ds).take k)).2.1 hp
  unfold handleConn at h
  rcases h with h | h <;> rw [this] at h <;> cases h

/-- Garbage, and a packet whose annotation has no key, end the connection with an error. -/
example : handleConn acceptAll [0xff, 0xff] = ([], .readError) ∧
    handleConn acceptAll [23, 0x0b, 0x11, 1, 0, 0, 0, 0, 0, 0, 0, 0x19, 2, 0, 0, 0, 0, 0, 0, 0, 0x0c, 0x2b, 0x2c] =
      ([], .readError) := by decide

end Appdash
