import Verif.Model.Wire
import Verif.Proofs.Bits
import Mathlib.Tactic.NormNum

/-! # Encoding and decoding of collector packets -/

namespace Appdash

/-! ## Varints -/

theorem encVarintLoop_fuel (f g n : Nat) (hf : n < f) (hg : n < g) : encVarintLoop f n = encVarintLoop g n := by
  induction f generalizing g n with
  | zero => omega
  | succ f ih =>
    cases g with
    | zero => omega
    | succ g =>
      simp only [encVarintLoop]
      split
      · rfl
      · rw [ih g (n / 128) (by omega) (by omega)]

theorem encVarint_small {n : Nat} (h : n < 128) : encVarint n = [UInt8.ofNat n] := by
  simp [encVarint, encVarintLoop, h]

theorem encVarint_big {n : Nat} (h : ¬ n < 128) :
    encVarint n = UInt8.ofNat (n % 128 + 128) :: encVarint (n / 128) := by
  simp only [encVarint, encVarintLoop, h, if_false]
  rw [encVarintLoop_fuel n (n / 128 + 1) (n / 128) (by omega) (by omega)]
  rfl

theorem encVarint_ne_nil (n : Nat) : encVarint n ≠ [] := by
  by_cases h : n < 128
  · simp [encVarint_small h]
  · simp [encVarint_big h]

theorem decVarintLoop_enc (k n : Nat) (r : Bytes) (h : n < 128 ^ k) (hk : 0 < k) :
    decVarintLoop k (encVarint n ++ r) = some (n, r) := by
  induction k generalizing n with
  | zero => omega
  | succ k ih =>
    by_cases hn : n < 128
    · have e : (UInt8.ofNat n).toNat = n := by simp; omega
      simp [encVarint_small hn, decVarintLoop, e, hn]
    · have e : (UInt8.ofNat (n % 128 + 128)).toNat = n % 128 + 128 := by simp; omega
      have hk' : 0 < k := by
        rcases Nat.eq_zero_or_pos k with rfl | h0
        · omega
        · exact h0
      rw [Nat.pow_succ] at h
      have := ih (n / 128) (by omega) hk'
      simp only [encVarint_big hn, List.cons_append, decVarintLoop, e, this]
      rw [if_neg (by omega)]
      simp only [Option.some.injEq, Prod.mk.injEq, and_true]
      omega

theorem decVarint_enc (n : Nat) (r : Bytes) (h : n < 2 ^ 64) : decVarint (encVarint n ++ r) = some (n, r) := by
  rw [decVarint, decVarintLoop_enc 10 n r (by omega) (by omega)]
  simp only [Nat.mod_eq_of_lt h]

/-- A proper prefix of a varint is not a varint. -/
theorem decVarintLoop_prefix (k n : Nat) (s : Bytes) (hs : s <+: encVarint n) (hne : s ≠ encVarint n) :
    decVarintLoop k s = none := by
  induction k generalizing n s with
  | zero => rfl
  | succ k ih =>
    cases s with
    | nil => rfl
    | cons b s =>
      by_cases hn : n < 128
      · rw [encVarint_small hn] at hs hne
        obtain ⟨t, ht⟩ := hs
        simp only [List.cons_append, List.cons.injEq, List.append_eq_nil_iff] at ht
        exact absurd (by simp [ht.1, ht.2.1]) hne
      · rw [encVarint_big hn] at hs hne
        rw [List.cons_prefix_cons] at hs
        obtain ⟨rfl, hs⟩ := hs
        have e : (UInt8.ofNat (n % 128 + 128)).toNat = n % 128 + 128 := by simp; omega
        have := ih (n / 128) s hs (by rintro rfl; exact hne rfl)
        simp only [decVarintLoop, e, this]
        rw [if_neg (by omega)]

/-- Decoding consumes at least one byte. -/
theorem decVarintLoop_length {k : Nat} {s r : Bytes} {v : Nat} (h : decVarintLoop k s = some (v, r)) :
    r.length < s.length := by
  induction k generalizing s v r with
  | zero => cases h
  | succ k ih =>
    cases s with
    | nil => cases h
    | cons b s =>
      simp only [decVarintLoop] at h
      split at h
      · simp only [Option.some.injEq, Prod.mk.injEq] at h
        rw [← h.2]; simp
      · split at h
        · cases h
        · rename_i v' r' hd
          simp only [Option.some.injEq, Prod.mk.injEq] at h
          have := ih hd
          rw [← h.2]; simp; omega

theorem decVarint_length {s r : Bytes} {v : Nat} (h : decVarint s = some (v, r)) : r.length < s.length := by
  simp only [decVarint] at h
  split at h
  · cases h
  · rename_i v' r' hd
    simp only [Option.some.injEq, Prod.mk.injEq] at h
    rw [← h.2]; exact decVarintLoop_length hd

/-! ## Fields -/

theorem decFixed64_enc (v : UInt64) (r : Bytes) : decFixed64 (leBytes 8 v.toNat ++ r) = some (v, r) := by
  have hl : (leBytes 8 v.toNat).length = 8 := length_leBytes 8 _
  have h1 : ¬ (leBytes 8 v.toNat ++ r).length < 8 := by simp
  rw [decFixed64, if_neg h1, List.take_append_of_le_length (by omega), List.take_of_length_le (by omega),
    List.drop_append_of_le_length (by omega), List.drop_of_length_le (by omega), leNat_leBytes]
  simp only [List.nil_append, Option.some.injEq, Prod.mk.injEq, and_true]
  apply UInt64.toNat_inj.1
  have := v.toNat_lt
  rw [UInt64.toNat_ofNat']
  norm_num

theorem decRawBytes_enc (v r : Bytes) (h : v.length < 2 ^ 63) :
    decRawBytes (encVarint v.length ++ v ++ r) = some (v, r) := by
  rw [decRawBytes, List.append_assoc, decVarint_enc _ _ (by omega)]
  simp only [List.length_append]
  rw [if_neg (by omega)]
  simp

/-- One round of the field loop. -/
theorem decLoop_step {σ : Type} {isGroup : Bool} {complete : σ → Bool}
    {field : σ → Nat → Nat → Bytes → Option (σ × Bytes)} {f tag wire : Nat} {st st' : σ} {body rest : Bytes}
    (ht : 0 < tag) (htag : 8 * tag + wire < 2 ^ 64) (hw : wire < 8) (hw4 : wire ≠ 4)
    (hf : field st tag wire (body ++ rest) = some (st', rest)) :
    decLoop isGroup complete field (f + 1) st (encTag tag wire ++ body ++ rest) =
      decLoop isGroup complete field f st' rest := by
  have hd := decVarint_enc (8 * tag + wire) (body ++ rest) htag
  have h1 : (8 * tag + wire) % 8 = wire := by omega
  have h2 : (8 * tag + wire) / 8 = tag := by omega
  rw [List.append_assoc]
  unfold encTag
  cases hh : encVarint (8 * tag + wire) ++ (body ++ rest) with
  | nil => simp [encVarint_ne_nil] at hh
  | cons b s =>
    rw [hh] at hd
    simp only [decLoop, hd, h1, h2]
    rw [if_neg hw4, if_neg (by omega), hf]

/-- The end of a group. -/
theorem decLoop_end {σ : Type} {complete : σ → Bool}
    {field : σ → Nat → Nat → Bytes → Option (σ × Bytes)} {f tag : Nat} {st : σ} {rest : Bytes}
    (htag : 8 * tag + 4 < 2 ^ 64) (hc : complete st = true) :
    decLoop true complete field (f + 1) st (encTag tag 4 ++ rest) = some (st, rest) := by
  have hd := decVarint_enc (8 * tag + 4) rest htag
  have h1 : (8 * tag + 4) % 8 = 4 := by omega
  unfold encTag
  cases hh : encVarint (8 * tag + 4) ++ rest with
  | nil => simp [encVarint_ne_nil] at hh
  | cons b s =>
    rw [hh] at hd
    simp only [decLoop, hd, h1, hc]
    simp

theorem length_encVarint_pos (n : Nat) : 0 < (encVarint n).length := List.length_pos_iff.2 (encVarint_ne_nil n)

/-! ## Groups -/

theorem decSpanID_enc (id : SpanID) (w : WSpanID) (rest : Bytes) (f : Nat) (hf : 4 ≤ f) :
    decLoop true (fun a : SpanAcc => a.seenTrace && a.seenSpan) spanField f { val := w }
      (encFixed64 2 id.trace ++ encFixed64 3 id.span ++ encFixed64 4 id.parent ++ encTag 1 4 ++ rest) =
    some ({ val := id.wire, seenTrace := true, seenSpan := true }, rest) := by
  obtain ⟨f, rfl⟩ : ∃ g, f = g + 4 := ⟨f - 4, by omega⟩
  have e : encFixed64 2 id.trace ++ encFixed64 3 id.span ++ encFixed64 4 id.parent ++ encTag 1 4 ++ rest =
      encTag 2 1 ++ leBytes 8 id.trace.toNat ++ (encTag 3 1 ++ leBytes 8 id.span.toNat ++
        (encTag 4 1 ++ leBytes 8 id.parent.toNat ++ (encTag 1 4 ++ rest))) := by
    simp [encFixed64, List.append_assoc]
  rw [e]
  rw [decLoop_step (st' := { val := { w with trace := some id.trace }, seenTrace := true })
    (by omega) (by omega) (by omega) (by omega) (by simp only [spanField, decFixed64_enc]; rfl)]
  rw [decLoop_step (st' := { val := { w with trace := some id.trace, span := some id.span }, seenTrace := true, seenSpan := true })
    (by omega) (by omega) (by omega) (by omega) (by simp only [spanField, decFixed64_enc]; rfl)]
  rw [decLoop_step (st' := { val := id.wire, seenTrace := true, seenSpan := true })
    (by omega) (by omega) (by omega) (by omega) (by simp only [spanField, decFixed64_enc]; rfl)]
  exact decLoop_end (by omega) rfl

/-- Lengths that a Go slice can have. -/
def WAnnotation.Fits (w : WAnnotation) : Prop :=
  (∀ k, w.key = some k → k.length < 2 ^ 63) ∧ ∀ v, w.value = some v → v.length < 2 ^ 63

theorem decAnnotation_enc (w : WAnnotation) (hw : w.Fits) (hk : w.key.isSome) (rest : Bytes) (f : Nat) (hf : 3 ≤ f) :
    decLoop true (fun a : WAnnotation => a.key.isSome) annField f {}
      (encOpt (encBytes 6) w.key ++ encOpt (encBytes 7) w.value ++ encTag 5 4 ++ rest) = some (w, rest) := by
  obtain ⟨f, rfl⟩ : ∃ g, f = g + 3 := ⟨f - 3, by omega⟩
  obtain ⟨k, v⟩ := w
  obtain ⟨k, rfl⟩ := Option.isSome_iff_exists.1 hk
  have hk' := hw.1 k rfl
  have e : encOpt (encBytes 6) (some k) ++ encOpt (encBytes 7) v ++ encTag 5 4 ++ rest =
      encTag 6 2 ++ (encVarint k.length ++ k) ++ (encOpt (encBytes 7) v ++ (encTag 5 4 ++ rest)) := by
    simp [encOpt, encBytes, List.append_assoc]
  rw [e]
  rw [decLoop_step (st' := { key := some k })
    (by omega) (by omega) (by omega) (by omega) (by simp only [annField, decRawBytes_enc _ _ hk']; rfl)]
  cases v with
  | none => exact decLoop_end (by omega) rfl
  | some v =>
    have hv' := hw.2 v rfl
    have e : encOpt (encBytes 7) (some v) ++ (encTag 5 4 ++ rest) =
        encTag 7 2 ++ (encVarint v.length ++ v) ++ (encTag 5 4 ++ rest) := by
      simp [encOpt, encBytes, List.append_assoc]
    rw [e]
    rw [decLoop_step (st' := { key := some k, value := some v })
      (by omega) (by omega) (by omega) (by omega) (by simp only [annField, decRawBytes_enc _ _ hv']; rfl)]
    exact decLoop_end (by omega) rfl

theorem length_encTag_pos (t w : Nat) : 0 < (encTag t w).length := length_encVarint_pos _

theorem packetField_annotation (st : WPacket) (w : WAnnotation) (hw : w.Fits) (hk : w.key.isSome) (rest : Bytes) :
    packetField st 5 3 (encOpt (encBytes 6) w.key ++ encOpt (encBytes 7) w.value ++ encTag 5 4 ++ rest) =
      some ({ st with annotation := st.annotation ++ [w] }, rest) := by
  have hlen : 3 ≤ (encOpt (encBytes 6) w.key ++ encOpt (encBytes 7) w.value ++ encTag 5 4 ++ rest).length + 1 := by
    obtain ⟨k, hk⟩ := Option.isSome_iff_exists.1 hk
    have h1 := length_encTag_pos 6 2
    have h2 := length_encTag_pos 5 4
    have h3 := length_encVarint_pos k.length
    simp only [hk, encOpt, encBytes, List.length_append]
    omega
  simp only [packetField]
  rw [decAnnotation_enc w hw hk rest _ hlen]
  simp

theorem packetField_span (st : WPacket) (id : SpanID) (rest : Bytes) :
    packetField st 1 3 (encFixed64 2 id.trace ++ encFixed64 3 id.span ++ encFixed64 4 id.parent ++ encTag 1 4 ++ rest) =
      some ({ st with spanid := some id.wire }, rest) := by
  have hlen : 4 ≤ (encFixed64 2 id.trace ++ encFixed64 3 id.span ++ encFixed64 4 id.parent ++ encTag 1 4 ++ rest).length
      + 1 := by
    simp only [encFixed64, List.length_append, length_leBytes]
    omega
  simp only [packetField]
  rw [decSpanID_enc id _ rest _ hlen]
  simp

theorem decAnnotations_enc (ws : List WAnnotation) (hw : ∀ w ∈ ws, w.Fits ∧ w.key.isSome) (st : WPacket)
    (hst : st.spanid.isSome) (f : Nat) (hf : ws.length < f) :
    decLoop false (fun p : WPacket => p.spanid.isSome) packetField f st (ws.flatMap encAnnotation) =
      some ({ st with annotation := st.annotation ++ ws }, []) := by
  induction ws generalizing st f with
  | nil =>
    obtain ⟨f, rfl⟩ : ∃ g, f = g + 1 := ⟨f - 1, by simp at hf; omega⟩
    simp [decLoop, hst]
  | cons w ws ih =>
    obtain ⟨f, rfl⟩ : ∃ g, f = g + 1 := ⟨f - 1, by simp at hf; omega⟩
    have e : (w :: ws).flatMap encAnnotation = encTag 5 3 ++
        (encOpt (encBytes 6) w.key ++ encOpt (encBytes 7) w.value ++ encTag 5 4) ++ ws.flatMap encAnnotation := by
      simp [encAnnotation, List.append_assoc]
    rw [e]
    rw [decLoop_step (st' := { st with annotation := st.annotation ++ [w] }) (by omega) (by omega) (by omega) (by omega)
      (packetField_annotation st w (hw w (by simp)).1 (hw w (by simp)).2 _)]
    rw [ih (fun w' h' => hw w' (by simp [h'])) _ (by simpa using hst) f (by simpa using hf)]
    simp

/-- What a packet made by `newCollectPacket` needs for its encoding to be decodable: all lengths fit a Go `int`. -/
def FitsInt (as : List Annotation) : Prop :=
  ∀ a ∈ as, a.key.length < 2 ^ 63 ∧ ∀ v, a.value = some v → v.length < 2 ^ 63

theorem length_flatMap_encAnnotation (ws : List WAnnotation) : ws.length ≤ (ws.flatMap encAnnotation).length := by
  induction ws with
  | nil => simp
  | cons w ws ih =>
    have := length_encTag_pos 5 3
    simp only [List.flatMap_cons, List.length_append, List.length_cons, encAnnotation]
    omega

theorem unmarshal_marshal (id : SpanID) (as : List Annotation) (h : FitsInt as) :
    unmarshal (marshal (newCollectPacket id as)) = some (newCollectPacket id as) := by
  have hw : ∀ w ∈ annotationsWire as, w.Fits ∧ w.key.isSome := by
    intro w hw
    simp only [annotationsWire, List.mem_map] at hw
    obtain ⟨a, ha, rfl⟩ := hw
    obtain ⟨h1, h2⟩ := h a ha
    exact ⟨⟨by intro k hk; cases hk; exact h1, by intro v hv; exact h2 v hv⟩, rfl⟩
  have e : marshal (newCollectPacket id as) = encTag 1 3 ++
      (encFixed64 2 id.trace ++ encFixed64 3 id.span ++ encFixed64 4 id.parent ++ encTag 1 4) ++
      (annotationsWire as).flatMap encAnnotation := by
    simp [marshal, newCollectPacket, encOpt, encSpanID, SpanID.wire, List.append_assoc]
  have hl := length_flatMap_encAnnotation (annotationsWire as)
  rw [unmarshal, e]
  rw [decLoop_step (st' := { spanid := some id.wire }) (by omega) (by omega) (by omega) (by omega)
    (packetField_span {} id _)]
  rw [decAnnotations_enc _ hw _ rfl _ (by
    have := length_encTag_pos 1 3
    simp only [List.length_append]; omega)]
  rfl

theorem annotationsFromWire_wire (as : List Annotation) : annotationsFromWire (annotationsWire as) = some as := by
  induction as with
  | nil => rfl
  | cons a as ih =>
    have : annotationsWire (a :: as) = { key := some a.key, value := a.value } :: annotationsWire as := rfl
    simp [this, annotationsFromWire, ih]

/-! ## Frames -/

theorem readMsg_frame (id : SpanID) (as : List Annotation) (rest : Bytes)
    (hmax : (marshal (newCollectPacket id as)).length ≤ maxMessageSize) (h : FitsInt as) :
    readMsg (frame (newCollectPacket id as) ++ rest) = .ok (newCollectPacket id as) rest := by
  have hm : maxMessageSize = 1048576 := rfl
  have hne : frame (newCollectPacket id as) ++ rest ≠ [] := by simp [frame, encVarint_ne_nil]
  have hr : readUvarint (frame (newCollectPacket id as) ++ rest) =
      .ok (marshal (newCollectPacket id as)).length (marshal (newCollectPacket id as) ++ rest) := by
    rw [readUvarint, if_neg hne, frame, List.append_assoc, decVarintLoop_enc 10 _ _ (by omega) (by omega)]
    simp only
    rw [if_neg (by omega)]
  rw [readMsg, hr]
  simp only [List.length_append]
  rw [if_neg (by omega), if_neg (by omega)]
  simp [unmarshal_marshal id as h]

/-- A proper prefix of a frame yields no message. -/
theorem readMsg_prefix (p : WPacket) (s : Bytes) (hp : (marshal p).length < 2 ^ 64) (hs : s <+: frame p)
    (hne : s ≠ frame p) : readMsg s = .eof ∨ readMsg s = .err := by
  by_cases h0 : s = []
  · left; subst h0; rfl
  unfold frame at hs hne
  rcases Nat.lt_or_ge s.length (encVarint (marshal p).length).length with hl | hl
  · have h1 : s <+: encVarint (marshal p).length := (List.prefix_append_right_inj []).1 (by
      obtain ⟨t, ht⟩ := hs
      rw [List.nil_append, List.nil_append]
      exact List.prefix_of_prefix_length_le ⟨t, ht⟩ (List.prefix_append _ _) (Nat.le_of_lt hl))
    right
    have := decVarintLoop_prefix 10 (marshal p).length s h1 (by rintro rfl; omega)
    simp [readMsg, readUvarint, h0, this]
  · obtain ⟨t, ht⟩ : ∃ t, s = encVarint (marshal p).length ++ t := by
      have := List.prefix_of_prefix_length_le (List.prefix_append _ _) hs hl
      obtain ⟨t, ht⟩ := this
      exact ⟨t, ht.symm⟩
    subst ht
    have htp : t <+: marshal p := (List.prefix_append_right_inj _).1 hs
    have htl : t.length < (marshal p).length := by
      rcases Nat.lt_or_ge t.length (marshal p).length with h | h
      · exact h
      · exact absurd (by rw [List.IsPrefix.eq_of_length htp (Nat.le_antisymm htp.length_le h)]) hne
    have hr : readUvarint (encVarint (marshal p).length ++ t) = .ok (marshal p).length t := by
      rw [readUvarint, if_neg h0, decVarintLoop_enc 10 _ _ (by omega) (by omega)]
      simp only
      rw [if_neg (by omega)]
    rw [readMsg, hr]
    simp only [htl, if_true]
    split
    · exact .inr rfl
    · split
      · exact .inl rfl
      · exact .inr rfl

/-- A frame that is too large is refused. -/
theorem readMsg_oversize (p : WPacket) (rest : Bytes) (hp : (marshal p).length < 2 ^ 64)
    (hmax : (marshal p).length > maxMessageSize) : readMsg (frame p ++ rest) = .err := by
  have hne : frame p ++ rest ≠ [] := by simp [frame, encVarint_ne_nil]
  have hr : readUvarint (frame p ++ rest) = .ok (marshal p).length (marshal p ++ rest) := by
    rw [readUvarint, if_neg hne, frame, List.append_assoc, decVarintLoop_enc 10 _ _ (by omega) (by omega)]
    simp only
    rw [if_neg (by omega)]
  rw [readMsg, hr]
  simp only [hmax, if_true]

end Appdash
