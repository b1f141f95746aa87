import Verif.Spec.Wire
import Verif.Proofs.Wire

/-! # The collector server's handler -/

namespace Appdash

/-! ## Fuel is never the limit -/

theorem decRawBytes_length {s v r : Bytes} (h : decRawBytes s = some (v, r)) : r.length ≤ s.length := by
  simp only [decRawBytes] at h
  split at h
  · cases h
  · rename_i n r' hd
    split at h
    · cases h
    · simp only [Option.some.injEq, Prod.mk.injEq] at h
      have := decVarint_length hd
      rw [← h.2]; simp; omega

theorem decFixed64_length {s r : Bytes} {v : UInt64} (h : decFixed64 s = some (v, r)) : r.length ≤ s.length := by
  simp only [decFixed64] at h
  split at h
  · cases h
  · simp only [Option.some.injEq, Prod.mk.injEq] at h
    rw [← h.2]; simp

theorem skipPlain_length {w : Nat} {s r : Bytes} (h : skipPlain w s = some r) : r.length ≤ s.length := by
  simp only [skipPlain] at h
  split at h
  · rw [Option.map_eq_some_iff] at h
    obtain ⟨⟨v, r'⟩, hd, rfl⟩ := h
    exact Nat.le_of_lt (decVarint_length hd)
  · split at h
    · split at h
      · cases h
      · cases h; simp
    · split at h
      · rw [Option.map_eq_some_iff] at h
        obtain ⟨⟨v, r'⟩, hd, rfl⟩ := h
        exact decRawBytes_length hd
      · split at h
        · split at h
          · cases h
          · cases h; simp
        · cases h

theorem skipGroup_length {f d : Nat} {s r : Bytes} (h : skipGroup f d s = some r) : r.length ≤ s.length := by
  induction f generalizing d s with
  | zero =>
    cases d with
    | zero => simp only [skipGroup, Option.some.injEq] at h; rw [h]
    | succ d => cases h
  | succ f ih =>
    cases d with
    | zero => simp only [skipGroup, Option.some.injEq] at h; rw [h]
    | succ d =>
      simp only [skipGroup] at h
      split at h
      · cases h
      · rename_i u r' hd
        have h1 := decVarint_length hd
        split at h
        · have := ih h; omega
        · split at h
          · have := ih h; omega
          · split at h
            · cases h
            · rename_i r2 hs
              have h2 := skipPlain_length hs
              have := ih h; omega

theorem skipField_length {w : Nat} {s r : Bytes} (h : skipField w s = some r) : r.length ≤ s.length := by
  simp only [skipField] at h
  split at h
  · exact skipGroup_length h
  · exact skipPlain_length h

/-- With more fuel than bytes, `skipGroup` never runs out. -/
theorem skipGroup_fuel {f g d : Nat} {s : Bytes} (hf : s.length < f) (hg : s.length < g) :
    skipGroup f d s = skipGroup g d s := by
  induction f generalizing g d s with
  | zero => omega
  | succ f ih =>
    cases g with
    | zero => omega
    | succ g =>
      cases d with
      | zero => rfl
      | succ d =>
        simp only [skipGroup]
        cases hd : decVarint s with
        | none => rfl
        | some ur =>
          obtain ⟨u, r⟩ := ur
          have h1 := decVarint_length hd
          simp only
          split
          · exact ih (by omega) (by omega)
          · split
            · exact ih (by omega) (by omega)
            · cases hs : skipPlain (u % 8) r with
              | none => rfl
              | some r2 =>
                have h2 := skipPlain_length hs
                exact ih (by omega) (by omega)

/-- The same for the field loop. -/
theorem decLoop_length {σ : Type} {isGroup : Bool} {complete : σ → Bool}
    {field : σ → Nat → Nat → Bytes → Option (σ × Bytes)}
    (hfield : ∀ st t w s st' r, field st t w s = some (st', r) → r.length ≤ s.length) {f : Nat} {st st' : σ} {s r : Bytes}
    (h : decLoop isGroup complete field f st s = some (st', r)) : r.length ≤ s.length := by
  induction f generalizing st s with
  | zero => cases h
  | succ f ih =>
    cases s with
    | nil =>
      simp only [decLoop] at h
      split at h
      · simp only [Option.some.injEq, Prod.mk.injEq] at h; rw [← h.2]
      · cases h
    | cons b s =>
      simp only [decLoop] at h
      split at h
      · cases h
      · rename_i u r' hd
        have h1 := decVarint_length hd
        split at h
        · split at h
          · simp only [Option.some.injEq, Prod.mk.injEq] at h; rw [← h.2]; omega
          · cases h
        · split at h
          · cases h
          · split at h
            · cases h
            · rename_i st2 r2 hs
              have h2 := hfield _ _ _ _ _ _ hs
              have := ih h
              omega

theorem decLoop_fuel {σ : Type} {isGroup : Bool} {complete : σ → Bool}
    {field : σ → Nat → Nat → Bytes → Option (σ × Bytes)}
    (hfield : ∀ st t w s st' r, field st t w s = some (st', r) → r.length ≤ s.length) {f g : Nat} {st : σ} {s : Bytes}
    (hf : s.length < f) (hg : s.length < g) :
    decLoop isGroup complete field f st s = decLoop isGroup complete field g st s := by
  induction f generalizing g st s with
  | zero => omega
  | succ f ih =>
    cases g with
    | zero => omega
    | succ g =>
      cases s with
      | nil => rfl
      | cons b s =>
        simp only [decLoop]
        cases hd : decVarint (b :: s) with
        | none => rfl
        | some ur =>
          obtain ⟨u, r⟩ := ur
          have h1 := decVarint_length hd
          simp only
          split
          · rfl
          · split
            · rfl
            · cases hs : field st (u / 8) (u % 8) r with
              | none => rfl
              | some x =>
                obtain ⟨st2, r2⟩ := x
                have h2 := hfield _ _ _ _ _ _ hs
                exact ih (by omega) (by omega)

/-! ## Decoded packets have their required fields -/

theorem decLoop_inv {σ : Type} {isGroup : Bool} {complete : σ → Bool}
    {field : σ → Nat → Nat → Bytes → Option (σ × Bytes)} (I : σ → Prop)
    (hfield : ∀ st t w s st' r, I st → field st t w s = some (st', r) → I st') {f : Nat} {st st' : σ} {s r : Bytes}
    (hI : I st) (h : decLoop isGroup complete field f st s = some (st', r)) : I st' ∧ complete st' = true := by
  induction f generalizing st s with
  | zero => cases h
  | succ f ih =>
    cases s with
    | nil =>
      simp only [decLoop] at h
      split at h
      · rename_i hc
        simp only [Option.some.injEq, Prod.mk.injEq] at h; rw [← h.1]; exact ⟨hI, hc.2⟩
      · cases h
    | cons b s =>
      simp only [decLoop] at h
      split at h
      · cases h
      · rename_i u r' hd
        split at h
        · split at h
          · rename_i hc
            simp only [Option.some.injEq, Prod.mk.injEq] at h; rw [← h.1]; exact ⟨hI, hc.2⟩
          · cases h
        · split at h
          · cases h
          · split at h
            · cases h
            · rename_i st2 r2 hs
              exact ih (hfield _ _ _ _ _ _ hI hs) h

theorem spanField_inv (st : SpanAcc) (t w : Nat) (s : Bytes) (st' : SpanAcc) (r : Bytes)
    (hI : (st.seenTrace = true → st.val.trace.isSome) ∧ (st.seenSpan = true → st.val.span.isSome))
    (h : spanField st t w s = some (st', r)) :
    (st'.seenTrace = true → st'.val.trace.isSome) ∧ (st'.seenSpan = true → st'.val.span.isSome) := by
  simp only [spanField] at h
  split at h
  · split at h
    · split at h
      · cases h
      · simp only [Option.some.injEq, Prod.mk.injEq] at h
        rw [← h.1]
        split
        · exact ⟨fun _ => rfl, hI.2⟩
        · split
          · exact ⟨hI.1, fun _ => rfl⟩
          · exact hI
    · cases h
  · rw [Option.map_eq_some_iff] at h
    obtain ⟨r', -, h⟩ := h
    simp only [Prod.mk.injEq] at h
    rw [← h.1]; exact hI

/-- A packet with its required fields. -/
def WPacket.Complete (p : WPacket) : Prop :=
  (∀ w, p.spanid = some w → w.trace.isSome ∧ w.span.isSome) ∧ ∀ a ∈ p.annotation, a.key.isSome

theorem packetField_inv (st : WPacket) (t w : Nat) (s : Bytes) (st' : WPacket) (r : Bytes)
    (hI : st.Complete) (h : packetField st t w s = some (st', r)) : st'.Complete := by
  simp only [packetField] at h
  split at h
  · split at h
    · split at h
      · cases h
      · rename_i a r' hd
        simp only [Option.some.injEq, Prod.mk.injEq] at h
        rw [← h.1]
        obtain ⟨h1, h2⟩ := decLoop_inv (fun st : SpanAcc =>
          (st.seenTrace = true → st.val.trace.isSome) ∧ (st.seenSpan = true → st.val.span.isSome))
          spanField_inv ⟨by simp, by simp⟩ hd
        simp only [Bool.and_eq_true] at h2
        refine ⟨?_, hI.2⟩
        intro w' hw'
        simp only [Option.some.injEq] at hw'
        subst hw'
        exact ⟨h1.1 h2.1, h1.2 h2.2⟩
    · cases h
  · split at h
    · split at h
      · split at h
        · cases h
        · rename_i a r' hd
          simp only [Option.some.injEq, Prod.mk.injEq] at h
          rw [← h.1]
          obtain ⟨-, h2⟩ := decLoop_inv (fun _ : WAnnotation => True) (fun _ _ _ _ _ _ _ _ => trivial) trivial hd
          refine ⟨hI.1, ?_⟩
          intro a' ha'
          rcases List.mem_append.1 ha' with ha' | ha'
          · exact hI.2 a' ha'
          · simp only [List.mem_singleton] at ha'
            subst ha'; exact h2
      · cases h
    · rw [Option.map_eq_some_iff] at h
      obtain ⟨r', -, h⟩ := h
      simp only [Prod.mk.injEq] at h
      rw [← h.1]; exact hI

theorem unmarshal_complete {s : Bytes} {p : WPacket} (h : unmarshal s = some p) :
    ∃ w, p.spanid = some w ∧ w.trace.isSome ∧ w.span.isSome ∧ ∀ a ∈ p.annotation, a.key.isSome := by
  rw [unmarshal, Option.map_eq_some_iff] at h
  obtain ⟨⟨p', r⟩, hd, rfl⟩ := h
  obtain ⟨h1, h2⟩ := decLoop_inv WPacket.Complete packetField_inv (st := {}) ⟨by simp, by simp⟩ hd
  obtain ⟨w, hw⟩ := Option.isSome_iff_exists.1 h2
  exact ⟨w, hw, (h1.1 w hw).1, (h1.1 w hw).2, h1.2⟩

theorem readMsg_complete {s rest : Bytes} {p : WPacket} (h : readMsg s = .ok p rest) :
    ∃ w, p.spanid = some w ∧ w.trace.isSome ∧ w.span.isSome ∧ ∀ a ∈ p.annotation, a.key.isSome := by
  simp only [readMsg] at h
  split at h
  · cases h
  · cases h
  · split at h
    · cases h
    · split at h
      · split at h <;> cases h
      · split at h
        · cases h
        · rename_i hu
          cases h
          exact unmarshal_complete hu

theorem annotationsFromWire_isSome {as : List WAnnotation} (h : ∀ a ∈ as, a.key.isSome) :
    (annotationsFromWire as).isSome := by
  induction as with
  | nil => rfl
  | cons a as ih =>
    obtain ⟨k, hk⟩ := Option.isSome_iff_exists.1 (h a (by simp))
    obtain ⟨l, hl⟩ := Option.isSome_iff_exists.1 (ih (fun b hb => h b (by simp [hb])))
    simp [annotationsFromWire, hk, hl]

/-! ## The handler loop -/

theorem readMsg_length {s rest : Bytes} {p : WPacket} (h : readMsg s = .ok p rest) : rest.length < s.length ∧ rest <:+ s := by
  simp only [readMsg] at h
  split at h
  · cases h
  · cases h
  · rename_i n r hr
    have hsuf : r.length < s.length ∧ r <:+ s := by
      simp only [readUvarint] at hr
      split at hr
      · cases hr
      · split at hr
        · cases hr
        · rename_i v r' hd
          split at hr
          · cases hr
          · cases hr
            have : ∀ k s v r, decVarintLoop k s = some (v, r) → r.length < s.length ∧ r <:+ s := by
              intro k
              induction k with
              | zero => intro s v r h; cases h
              | succ k ih =>
                intro s v r h
                cases s with
                | nil => cases h
                | cons b s =>
                  simp only [decVarintLoop] at h
                  split at h
                  · simp only [Option.some.injEq, Prod.mk.injEq] at h
                    rw [← h.2]; exact ⟨by simp, List.suffix_cons _ _⟩
                  · split at h
                    · cases h
                    · rename_i v' r' hd
                      simp only [Option.some.injEq, Prod.mk.injEq] at h
                      obtain ⟨h1, h2⟩ := ih _ _ _ hd
                      rw [← h.2]
                      exact ⟨by simp; omega, h2.trans (List.suffix_cons _ _)⟩
            exact this _ _ _ _ hd
    split at h
    · cases h
    · split at h
      · split at h <;> cases h
      · split at h
        · cases h
        · cases h
          exact ⟨by simp; omega, (List.drop_suffix _ _).trans hsuf.2⟩

theorem handleLoop_fuel {rejects : List Delivery → Delivery → Bool} {f g : Nat} {acc : List Delivery} {s : Bytes}
    (hf : s.length < f) (hg : s.length < g) : handleLoop rejects f acc s = handleLoop rejects g acc s := by
  induction f generalizing g acc s with
  | zero => omega
  | succ f ih =>
    cases g with
    | zero => omega
    | succ g =>
      simp only [handleLoop]
      cases hr : readMsg s with
      | eof => rfl
      | err => rfl
      | ok p rest =>
        have hl := (readMsg_length hr).1
        simp only
        cases spanIDFromWire p.spanid with
        | none => rfl
        | some id =>
          cases annotationsFromWire p.annotation with
          | none => rfl
          | some as =>
            simp only
            split
            · rfl
            · exact ih (by omega) (by omega)

/-- The encoding of an annotation is at least as long as its key and its value. -/
theorem fitsInt_of_limit (d : Delivery) (h : (marshal (newCollectPacket d.1 d.2)).length < 2 ^ 63) : FitsInt d.2 := by
  intro a ha
  have hle : (encAnnotation { key := some a.key, value := a.value }).length ≤
      (marshal (newCollectPacket d.1 d.2)).length := by
    have hm : ({ key := some a.key, value := a.value } : WAnnotation) ∈ annotationsWire d.2 :=
      List.mem_map.2 ⟨a, ha, rfl⟩
    have : ∀ (l : List WAnnotation) (w : WAnnotation), w ∈ l → (encAnnotation w).length ≤ (l.flatMap encAnnotation).length := by
      intro l w hw
      induction l with
      | nil => cases hw
      | cons x l ih =>
        rw [List.flatMap_cons, List.length_append]
        rcases List.mem_cons.1 hw with rfl | hw
        · omega
        · have := ih hw; omega
    have := this _ _ hm
    simp only [marshal, newCollectPacket, List.length_append] at this ⊢
    omega
  constructor
  · simp only [encAnnotation, encOpt, encBytes, List.length_append] at hle
    omega
  · intro v hv
    simp only [encAnnotation, hv, encOpt, encBytes, List.length_append] at hle
    omega

theorem frameOf_ne_nil (d : Delivery) : frameOf d ≠ [] := by simp [frameOf, frame, encVarint_ne_nil]

/-- One complete packet is read and handed on. -/
theorem handleLoop_frame {rejects : List Delivery → Delivery → Bool} {f : Nat} {acc : List Delivery} {d : Delivery}
    {rest : Bytes} (hd : WithinLimit d) :
    handleLoop rejects (f + 1) acc (frameOf d ++ rest) =
      if rejects acc d then (acc ++ [d], .collectError) else handleLoop rejects f (acc ++ [d]) rest := by
  have hfit : FitsInt d.2 := fitsInt_of_limit d (by unfold WithinLimit at hd; omega)
  have hr : readMsg (frameOf d ++ rest) = .ok (newCollectPacket d.1 d.2) rest :=
    readMsg_frame d.1 d.2 rest (by simpa [WithinLimit, maxMessageSize] using hd) hfit
  have h1 : spanIDFromWire (newCollectPacket d.1 d.2).spanid = some d.1 := rfl
  have h2 : annotationsFromWire (newCollectPacket d.1 d.2).annotation = some d.2 := annotationsFromWire_wire d.2
  simp only [handleLoop, hr, h1, h2]

theorem handleConn_frame (d : Delivery) (rest : Bytes) (rejects : List Delivery → Delivery → Bool) (acc : List Delivery)
    (hd : WithinLimit d) (f : Nat) (hf : (frameOf d ++ rest).length < f) :
    handleLoop rejects f acc (frameOf d ++ rest) =
      if rejects acc d then (acc ++ [d], .collectError) else
        handleLoop rejects (rest.length + 1) (acc ++ [d]) rest := by
  obtain ⟨f, rfl⟩ : ∃ g, f = g + 1 := ⟨f - 1, by omega⟩
  rw [handleLoop_frame hd]
  have := List.length_pos_iff.2 (frameOf_ne_nil d)
  simp only [List.length_append] at hf
  split
  · rfl
  · exact handleLoop_fuel (by omega) (by omega)

/-- Complete packets followed by anything. -/
theorem handleLoop_sent (ds : List Delivery) (hd : ∀ d ∈ ds, WithinLimit d) (rest : Bytes) (acc : List Delivery) :
    handleLoop acceptAll ((sent ds ++ rest).length + 1) acc (sent ds ++ rest) =
      handleLoop acceptAll (rest.length + 1) (acc ++ ds) rest := by
  induction ds generalizing acc with
  | nil => simp [sent]
  | cons d ds ih =>
    have e : sent (d :: ds) ++ rest = frameOf d ++ (sent ds ++ rest) := by simp [sent, List.append_assoc]
    rw [e, handleConn_frame d _ _ _ (hd d (by simp)) _ (by omega)]
    have : acceptAll acc d = false := rfl
    rw [this]
    simp only [Bool.false_eq_true, if_false]
    rw [ih (fun d' h' => hd d' (by simp [h']))]
    simp

/-- A prefix of packets: either a prefix of the complete ones, or complete ones and a cut one. -/
theorem take_sent (ds : List Delivery) (k : Nat) :
    ∃ m ≤ ds.length, ∃ part, (sent ds).take k = sent (ds.take m) ++ part ∧ (sent (ds.take m)).length ≤ k ∧
      ((m = ds.length ∧ part = []) ∨
        ∃ d, ds[m]? = some d ∧ part <+: frameOf d ∧ part ≠ frameOf d ∧ k < (sent (ds.take (m + 1))).length) := by
  induction ds generalizing k with
  | nil => exact ⟨0, by simp, [], by simp [sent], by simp [sent], .inl ⟨rfl, rfl⟩⟩
  | cons d ds ih =>
    have e : sent (d :: ds) = frameOf d ++ sent ds := by simp [sent]
    rcases Nat.lt_or_ge k (frameOf d).length with hk | hk
    · refine ⟨0, by simp, (frameOf d).take k, ?_, by simp [sent], .inr ⟨d, rfl, List.take_prefix _ _, ?_, ?_⟩⟩
      · rw [e, List.take_append_of_le_length (by omega)]; simp [sent]
      · intro h
        have := congrArg List.length h
        simp at this; omega
      · simpa [sent] using hk
    · obtain ⟨m, hm, part, h1, h2, h3⟩ := ih (k - (frameOf d).length)
      refine ⟨m + 1, by simp; omega, part, ?_, ?_, ?_⟩
      · rw [e, List.take_append, List.take_of_length_le hk, h1]
        simp [sent, List.append_assoc]
      · simp only [List.take_succ_cons, sent, List.flatMap_cons, List.length_append] at h2 ⊢
        omega
      · rcases h3 with ⟨rfl, h⟩ | ⟨d', h4, h5, h6, h7⟩
        · exact .inl ⟨by simp, h⟩
        · refine .inr ⟨d', by simpa using h4, h5, h6, ?_⟩
          simp only [List.take_succ_cons, sent, List.flatMap_cons, List.length_append] at h7 ⊢
          omega

/-- A cut packet yields nothing. -/
theorem handleLoop_part {rejects : List Delivery → Delivery → Bool} (d : Delivery) (hd : WithinLimit d) (part : Bytes)
    (hp : part <+: frameOf d) (hne : part ≠ frameOf d) (f : Nat) (acc : List Delivery) :
    handleLoop rejects (f + 1) acc part = (acc, .closed) ∨ handleLoop rejects (f + 1) acc part = (acc, .readError) := by
  rcases readMsg_prefix (newCollectPacket d.1 d.2) part (by unfold WithinLimit at hd; omega) hp hne with h | h
  · left; simp [handleLoop, h]
  · right; simp [handleLoop, h]

theorem handleLoop_nil {rejects : List Delivery → Delivery → Bool} (f : Nat) (acc : List Delivery) :
    handleLoop rejects (f + 1) acc [] = (acc, .closed) := by
  have : readMsg [] = .eof := rfl
  simp [handleLoop, this]

/-- Whatever the collector does, what it is given is a prefix of what an accepting collector is given, and the handler
panics only if it would for an accepting collector. -/
theorem handleLoop_rejects {rejects : List Delivery → Delivery → Bool} (f : Nat) (acc : List Delivery) (s : Bytes) :
    (handleLoop rejects f acc s).1 <+: (handleLoop acceptAll f acc s).1 ∧
    ((handleLoop rejects f acc s).2 = .panicked → (handleLoop acceptAll f acc s).2 = .panicked) ∧
    acc <+: (handleLoop acceptAll f acc s).1 := by
  induction f generalizing acc s with
  | zero => simp [handleLoop]
  | succ f ih =>
    simp only [handleLoop]
    cases hr : readMsg s with
    | eof => simp
    | err => simp
    | ok p rest =>
      simp only
      cases spanIDFromWire p.spanid with
      | none => simp
      | some id =>
        cases annotationsFromWire p.annotation with
        | none => simp
        | some as =>
          simp only [acceptAll, Bool.false_eq_true, if_false]
          obtain ⟨h1, h2, h3⟩ := ih (acc ++ [(id, as)]) rest
          refine ⟨?_, ?_, (List.prefix_append _ _).trans h3⟩
          · split
            · exact h3
            · exact h1
          · split
            · simp
            · exact h2

/-- A panic is caused by a packet without a parent. -/
theorem handleLoop_panics {rejects : List Delivery → Delivery → Bool} (f : Nat) (acc : List Delivery) (s : Bytes)
    (h : (handleLoop rejects f acc s).2 = .panicked) :
    ∃ s' p rest w, s' <:+ s ∧ readMsg s' = .ok p rest ∧ p.spanid = some w ∧ w.parent = none := by
  induction f generalizing acc s with
  | zero => simp [handleLoop] at h
  | succ f ih =>
    simp only [handleLoop] at h
    cases hr : readMsg s with
    | eof => simp [hr] at h
    | err => simp [hr] at h
    | ok p rest =>
      simp only [hr] at h
      obtain ⟨w, hw, ht, hs, hk⟩ := readMsg_complete hr
      obtain ⟨l, hl⟩ := Option.isSome_iff_exists.1 (annotationsFromWire_isSome hk)
      cases hp : w.parent with
      | none => exact ⟨s, p, rest, w, List.suffix_refl _, hr, hw, hp⟩
      | some q =>
        obtain ⟨t, ht'⟩ := Option.isSome_iff_exists.1 ht
        obtain ⟨sp, hs'⟩ := Option.isSome_iff_exists.1 hs
        have hid : spanIDFromWire p.spanid = some ⟨t, sp, q⟩ := by
          obtain ⟨a, b, c⟩ := w
          simp only at ht' hs' hp
          subst ht' hs' hp
          rw [hw]; rfl
        simp only [hid, hl] at h
        split at h
        · simp at h
        · obtain ⟨s', p', rest', w', h1, h2⟩ := ih _ _ h
          exact ⟨s', p', rest', w', h1.trans (readMsg_length hr).2, h2⟩

end Appdash
