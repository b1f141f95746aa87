import Verif.Spec.WireExtra
import Verif.Proofs.Wire

/-! # Lemmas about packets with unknown fields -/

namespace Appdash
open Spec

/-- The wire type. -/
def Spec.Unknown.wire : Unknown → Nat
  | .varint .. => 0
  | .fixed64 .. => 1
  | .bytes .. => 2
  | .group .. => 3
  | .fixed32 .. => 5

/-- What follows the tag. -/
def Spec.Unknown.body : Unknown → Bytes
  | .varint _ n => encVarint n.toNat
  | .fixed64 _ n => leBytes 8 n.toNat
  | .bytes _ b => encVarint b.length ++ b
  | .group t us => encUnknowns us ++ encTag t 4
  | .fixed32 _ a b c d => [a, b, c, d]

theorem unknown_enc (u : Unknown) : u.enc = encTag u.tag u.wire ++ u.body := by
  cases u <;> simp [Unknown.enc, Unknown.tag, Unknown.wire, Unknown.body]

theorem unknown_tag {u : Unknown} (h : u.wf) : 0 < u.tag ∧ u.tag < 2 ^ 29 := by
  cases u <;> simp only [Unknown.wf] at h
  · exact h
  · exact h
  · exact h.1
  · exact h.1
  · exact h

theorem unknown_wire (u : Unknown) : u.wire < 8 ∧ u.wire ≠ 4 := by cases u <;> simp [Unknown.wire]

mutual
/-- The number of tags in a field. -/
def unknownTags : Unknown → Nat
  | .group _ us => unknownsTags us + 2
  | .varint .. => 1
  | .fixed64 .. => 1
  | .bytes .. => 1
  | .fixed32 .. => 1
/-- The number of tags in fields. -/
def unknownsTags : List Unknown → Nat
  | [] => 0
  | u :: us => unknownTags u + unknownsTags us
end

mutual
theorem unknownTags_length (u : Unknown) : unknownTags u ≤ u.enc.length := by
  cases u with
  | group t us =>
    have := unknownsTags_length us
    have h1 := length_encTag_pos t 3
    have h2 := length_encTag_pos t 4
    simp only [unknownTags, Unknown.enc, List.length_append]
    omega
  | varint t n => have := length_encTag_pos t 0; simp only [unknownTags, Unknown.enc, List.length_append]; omega
  | fixed64 t n => have := length_encTag_pos t 1; simp only [unknownTags, Unknown.enc, List.length_append]; omega
  | bytes t n => have := length_encTag_pos t 2; simp only [unknownTags, Unknown.enc, List.length_append]; omega
  | fixed32 t => have := length_encTag_pos t 5; simp only [unknownTags, Unknown.enc, List.length_append]; omega
theorem unknownsTags_length (us : List Unknown) : unknownsTags us ≤ (encUnknowns us).length := by
  cases us with
  | nil => simp [unknownsTags]
  | cons u us =>
    have h1 := unknownTags_length u
    have h2 := unknownsTags_length us
    simp only [unknownsTags, encUnknowns, List.length_append]
    omega
end

theorem skipPlain_body {u : Unknown} (h : u.wf) (hg : ∀ t us, u ≠ .group t us) (rest : Bytes) : skipPlain u.wire (u.body ++ rest) = some rest := by
  cases u with
  | varint t n =>
    have := decVarint_enc n.toNat rest n.toNat_lt
    simp [Unknown.wire, Unknown.body, skipPlain, this]
  | fixed64 t n =>
    have hl : (leBytes 8 n.toNat).length = 8 := length_leBytes 8 _
    show (if (leBytes 8 n.toNat ++ rest).length < 8 then none else some ((leBytes 8 n.toNat ++ rest).drop 8)) = some rest
    rw [if_neg (by simp), List.drop_append_of_le_length (by omega), List.drop_of_length_le (by omega)]
    rfl
  | bytes t b =>
    have := decRawBytes_enc b rest h.2
    show (decRawBytes (encVarint b.length ++ b ++ rest)).map Prod.snd = some rest
    rw [this]
    rfl
  | group t us => exact absurd rfl (hg t us)
  | fixed32 t a b c d => simp [Unknown.wire, Unknown.body, skipPlain]

theorem skipGroup_plain {u : Unknown} (h : u.wf) (hg : ∀ t us, u ≠ .group t us) (h1 : unknownTags u = 1) (f d : Nat) (rest : Bytes) :
    skipGroup (unknownTags u + f) (d + 1) (u.enc ++ rest) = skipGroup f (d + 1) rest := by
  have ht := unknown_tag h
  have hw := unknown_wire u
  have hw3 : u.wire ≠ 3 := by
    cases u with
    | group t us => exact absurd rfl (hg t us)
    | _ => simp [Unknown.wire]
  have hd := decVarint_enc (8 * u.tag + u.wire) (u.body ++ rest) (by omega)
  rw [h1, Nat.add_comm, skipGroup, unknown_enc, List.append_assoc, encTag, hd]
  simp only
  have : (8 * u.tag + u.wire) % 8 = u.wire := by omega
  rw [this, if_neg hw.2, if_neg hw3, skipPlain_body h hg]

mutual
theorem skipGroup_unknown (u : Unknown) (h : u.wf) (f d : Nat) (rest : Bytes) :
    skipGroup (unknownTags u + f) (d + 1) (u.enc ++ rest) = skipGroup f (d + 1) rest := by
  have ht := unknown_tag h
  have hw := unknown_wire u
  cases u with
  | group t us =>
    have ht' : t < 2 ^ 29 := ht.2
    have hd := decVarint_enc (8 * t + 3) (encUnknowns us ++ (encTag t 4 ++ rest)) (by omega)
    have e : (Unknown.group t us).enc ++ rest = encVarint (8 * t + 3) ++ (encUnknowns us ++ (encTag t 4 ++ rest)) := by
      simp [Unknown.enc, encTag]
    rw [e, show unknownTags (Unknown.group t us) + f = (unknownsTags us + (f + 1)) + 1 by simp only [unknownTags]; omega, skipGroup, hd]
    simp only
    rw [if_neg (by omega), if_pos (by omega), skipGroup_unknowns us h.2 (f + 1) (d + 1), skipGroup]
    have hd' := decVarint_enc (8 * t + 4) rest (by omega)
    rw [encTag, hd']
    simp only
    rw [if_pos (by omega)]
  | varint t n => exact skipGroup_plain h (fun _ _ => nofun) rfl f d rest
  | fixed64 t n => exact skipGroup_plain h (fun _ _ => nofun) rfl f d rest
  | bytes t n => exact skipGroup_plain h (fun _ _ => nofun) rfl f d rest
  | fixed32 t => exact skipGroup_plain h (fun _ _ => nofun) rfl f d rest
theorem skipGroup_unknowns (us : List Unknown) (h : wfUnknowns us) (f d : Nat) (rest : Bytes) :
    skipGroup (unknownsTags us + f) (d + 1) (encUnknowns us ++ rest) = skipGroup f (d + 1) rest := by
  cases us with
  | nil => simp [unknownsTags, encUnknowns]
  | cons u us =>
    rw [encUnknowns, List.append_assoc, unknownsTags, Nat.add_assoc, skipGroup_unknown u h.1, skipGroup_unknowns us h.2]
end

theorem skipField_body {u : Unknown} (h : u.wf) (rest : Bytes) : skipField u.wire (u.body ++ rest) = some rest := by
  cases u with
  | group t us =>
    have ht := unknown_tag h
    have ht' : t < 2 ^ 29 := ht.2
    have hl := unknownsTags_length us
    have e : (Unknown.group t us).body ++ rest = encUnknowns us ++ (encTag t 4 ++ rest) := by simp [Unknown.body]
    show skipGroup (((Unknown.group t us).body ++ rest).length + 1) 1 ((Unknown.group t us).body ++ rest) = some rest
    rw [e]
    obtain ⟨g, hg⟩ : ∃ g, (encUnknowns us ++ (encTag t 4 ++ rest)).length + 1 = unknownsTags us + (g + 1) :=
      ⟨(encUnknowns us ++ (encTag t 4 ++ rest)).length - unknownsTags us, by simp only [List.length_append]; omega⟩
    rw [hg, skipGroup_unknowns us h.2 (g + 1) 0, skipGroup]
    have hd' := decVarint_enc (8 * t + 4) rest (by omega)
    rw [encTag, hd']
    simp only
    rw [if_pos (by omega)]
    cases g <;> rfl
  | varint t n => exact skipPlain_body h (fun _ _ => nofun) rest
  | fixed64 t n => exact skipPlain_body h (fun _ _ => nofun) rest
  | bytes t b => exact skipPlain_body h (fun _ _ => nofun) rest
  | fixed32 t a b c d => exact skipPlain_body h (fun _ _ => nofun) rest

/-- The field loop skips new fields. -/
theorem decLoop_unknowns {σ : Type} {isGroup : Bool} {complete : σ → Bool} {field : σ → Nat → Nat → Bytes → Option (σ × Bytes)} {known : List Nat}
    (hskip : ∀ st tag wire s, tag ∉ known → field st tag wire s = (skipField wire s).map fun r => (st, r)) {us : List Unknown}
    (hus : NewFields known us) (f : Nat) (st : σ) (rest : Bytes) :
    decLoop isGroup complete field (us.length + f) st (encUnknowns us ++ rest) = decLoop isGroup complete field f st rest := by
  induction us with
  | nil => simp [encUnknowns]
  | cons u us ih =>
    obtain ⟨h1, h2⟩ := hus u (List.mem_cons_self ..)
    have ht := unknown_tag h1
    have hw := unknown_wire u
    rw [encUnknowns, unknown_enc, List.append_assoc, List.length_cons, show us.length + 1 + f = (us.length + f) + 1 by omega]
    rw [decLoop_step (st' := st) ht.1 (by omega) hw.1 hw.2 (by rw [hskip _ _ _ _ h2, skipField_body h1]; rfl)]
    exact ih fun v hv => hus v (List.mem_cons_of_mem _ hv)

theorem spanField_skips (st : SpanAcc) (tag wire : Nat) (s : Bytes) (h : tag ∉ [2, 3, 4]) :
    spanField st tag wire s = (skipField wire s).map fun r => (st, r) := by
  simp only [List.mem_cons, List.not_mem_nil, or_false] at h
  rw [spanField, if_neg h]

theorem annField_skips (st : WAnnotation) (tag wire : Nat) (s : Bytes) (h : tag ∉ [6, 7]) :
    annField st tag wire s = (skipField wire s).map fun r => (st, r) := by
  simp only [List.mem_cons, List.not_mem_nil, or_false] at h
  rw [annField, if_neg h]

theorem packetField_skips (st : WPacket) (tag wire : Nat) (s : Bytes) (h : tag ∉ [1, 5]) :
    packetField st tag wire s = (skipField wire s).map fun r => (st, r) := by
  simp only [List.mem_cons, List.not_mem_nil, or_false, not_or] at h
  rw [packetField, if_neg h.1, if_neg h.2]

theorem length_encUnknowns (us : List Unknown) : us.length ≤ (encUnknowns us).length := by
  induction us with
  | nil => simp
  | cons u us ih =>
    have := length_encTag_pos u.tag u.wire
    rw [encUnknowns, unknown_enc]
    simp only [List.length_append, List.length_cons]
    omega

theorem packetField_newerSpan (st : WPacket) {p : NewerPacket} (h : p.Good) (rest : Bytes) :
    packetField st 1 3 (encUnknowns p.first ++ encFixed64 2 p.id.trace ++ encUnknowns p.second ++ encFixed64 3 p.id.span ++
      encUnknowns p.third ++ encFixed64 4 p.id.parent ++ encUnknowns p.fourth ++ encTag 1 4 ++ rest) =
      some ({ st with spanid := some p.id.wire }, rest) := by
  have e : encUnknowns p.first ++ encFixed64 2 p.id.trace ++ encUnknowns p.second ++ encFixed64 3 p.id.span ++
      encUnknowns p.third ++ encFixed64 4 p.id.parent ++ encUnknowns p.fourth ++ encTag 1 4 ++ rest =
      encUnknowns p.first ++ (encTag 2 1 ++ leBytes 8 p.id.trace.toNat ++ (encUnknowns p.second ++ (encTag 3 1 ++ leBytes 8 p.id.span.toNat ++
        (encUnknowns p.third ++ (encTag 4 1 ++ leBytes 8 p.id.parent.toNat ++ (encUnknowns p.fourth ++ (encTag 1 4 ++ rest))))))) := by
    simp [encFixed64, List.append_assoc]
  have hl : ∃ g, (encUnknowns p.first ++ encFixed64 2 p.id.trace ++ encUnknowns p.second ++ encFixed64 3 p.id.span ++
      encUnknowns p.third ++ encFixed64 4 p.id.parent ++ encUnknowns p.fourth ++ encTag 1 4 ++ rest).length + 1 =
      p.first.length + ((p.second.length + ((p.third.length + ((p.fourth.length + (g + 1)) + 1)) + 1)) + 1) := by
    refine ⟨(encUnknowns p.first ++ encFixed64 2 p.id.trace ++ encUnknowns p.second ++ encFixed64 3 p.id.span ++
      encUnknowns p.third ++ encFixed64 4 p.id.parent ++ encUnknowns p.fourth ++ encTag 1 4 ++ rest).length -
      (p.first.length + p.second.length + p.third.length + p.fourth.length + 3), ?_⟩
    have := length_encUnknowns p.first
    have := length_encUnknowns p.second
    have := length_encUnknowns p.third
    have := length_encUnknowns p.fourth
    simp only [encFixed64, List.length_append, length_leBytes]
    omega
  obtain ⟨g, hg⟩ := hl
  simp only [packetField]
  rw [hg, e]
  rw [decLoop_unknowns spanField_skips h.first]
  rw [decLoop_step (st' := { val := { st.spanid.getD {} with trace := some p.id.trace }, seenTrace := true })
    (by omega) (by omega) (by omega) (by omega) (by simp only [spanField, decFixed64_enc]; rfl)]
  rw [decLoop_unknowns spanField_skips h.second]
  rw [decLoop_step (st' := { val := { st.spanid.getD {} with trace := some p.id.trace, span := some p.id.span }, seenTrace := true, seenSpan := true })
    (by omega) (by omega) (by omega) (by omega) (by simp only [spanField, decFixed64_enc]; rfl)]
  rw [decLoop_unknowns spanField_skips h.third]
  rw [decLoop_step (st' := { val := p.id.wire, seenTrace := true, seenSpan := true })
    (by omega) (by omega) (by omega) (by omega) (by simp only [spanField, decFixed64_enc]; rfl)]
  rw [decLoop_unknowns spanField_skips h.fourth]
  rw [decLoop_end (by omega) rfl]
  simp

/-- The lengths of an annotation's key and value fit a Go `int`. -/
def annotationFits (a : Annotation) : Prop := a.key.length < 2 ^ 63 ∧ ∀ v, a.value = some v → v.length < 2 ^ 63

theorem packetField_newerAnnotation (st : WPacket) {a : NewerAnnotation} (hb : NewFields [6, 7] a.before) (hm : NewFields [6, 7] a.between)
    (ha : NewFields [6, 7] a.after) (hfit : annotationFits a.ann) (rest : Bytes) :
    packetField st 5 3 (encUnknowns a.before ++ encBytes 6 a.ann.key ++ encUnknowns a.between ++ encOpt (encBytes 7) a.ann.value ++
      encUnknowns a.after ++ encTag 5 4 ++ rest) =
      some ({ st with annotation := st.annotation ++ [⟨some a.ann.key, a.ann.value⟩] }, rest) := by
  have e : encUnknowns a.before ++ encBytes 6 a.ann.key ++ encUnknowns a.between ++ encOpt (encBytes 7) a.ann.value ++
      encUnknowns a.after ++ encTag 5 4 ++ rest = encUnknowns a.before ++ (encTag 6 2 ++ (encVarint a.ann.key.length ++ a.ann.key) ++
      (encUnknowns a.between ++ (encOpt (encBytes 7) a.ann.value ++ (encUnknowns a.after ++ (encTag 5 4 ++ rest))))) := by
    simp [encBytes, List.append_assoc]
  have hl : ∃ g, (encUnknowns a.before ++ encBytes 6 a.ann.key ++ encUnknowns a.between ++ encOpt (encBytes 7) a.ann.value ++
      encUnknowns a.after ++ encTag 5 4 ++ rest).length + 1 =
      a.before.length + ((a.between.length + (a.ann.value.toList.length + (a.after.length + (g + 1)))) + 1) := by
    refine ⟨(encUnknowns a.before ++ encBytes 6 a.ann.key ++ encUnknowns a.between ++ encOpt (encBytes 7) a.ann.value ++
      encUnknowns a.after ++ encTag 5 4 ++ rest).length - (a.before.length + a.between.length + a.ann.value.toList.length + a.after.length + 1), ?_⟩
    have := length_encUnknowns a.before
    have := length_encUnknowns a.between
    have := length_encUnknowns a.after
    have h1 := length_encTag_pos 6 2
    have h2 := length_encTag_pos 5 4
    have h3 : a.ann.value.toList.length ≤ (encOpt (encBytes 7) a.ann.value).length := by
      cases a.ann.value with
      | none => simp
      | some v => have := length_encTag_pos 7 2; simp only [encOpt, encBytes, List.length_append, Option.toList_some, List.length_singleton]; omega
    simp only [encBytes, List.length_append] at *
    omega
  obtain ⟨g, hg⟩ := hl
  simp only [packetField]
  rw [hg, e]
  rw [decLoop_unknowns annField_skips hb]
  rw [decLoop_step (st' := { key := some a.ann.key })
    (by omega) (by omega) (by omega) (by omega) (by simp only [annField, decRawBytes_enc _ _ hfit.1]; rfl)]
  rw [decLoop_unknowns annField_skips hm]
  cases hv : a.ann.value with
  | none =>
    simp only [Option.toList_none, List.length_nil, Nat.zero_add, encOpt, List.nil_append]
    rw [decLoop_unknowns annField_skips ha, decLoop_end (by omega) rfl]
    simp
  | some v =>
    have e : encOpt (encBytes 7) (some v) ++ (encUnknowns a.after ++ (encTag 5 4 ++ rest)) =
        encTag 7 2 ++ (encVarint v.length ++ v) ++ (encUnknowns a.after ++ (encTag 5 4 ++ rest)) := by
      simp [encOpt, encBytes, List.append_assoc]
    rw [e, Option.toList_some, List.length_singleton, Nat.add_comm 1]
    rw [decLoop_step (st' := { key := some a.ann.key, value := some v })
      (by omega) (by omega) (by omega) (by omega) (by simp only [annField, decRawBytes_enc _ _ (hfit.2 v hv)]; rfl)]
    rw [decLoop_unknowns annField_skips ha, decLoop_end (by omega) rfl]
    simp

theorem decNewerAnnotations (as : List NewerAnnotation)
    (h : ∀ a ∈ as, NewFields [6, 7] a.before ∧ NewFields [6, 7] a.between ∧ NewFields [6, 7] a.after ∧ NewFields [1, 5] a.next)
    (hfit : ∀ a ∈ as, annotationFits a.ann) (st : WPacket) (hst : st.spanid.isSome) (f : Nat) (hf : (as.flatMap NewerAnnotation.enc).length < f) :
    decLoop false (fun p : WPacket => p.spanid.isSome) packetField f st (as.flatMap NewerAnnotation.enc) =
      some ({ st with annotation := st.annotation ++ annotationsWire (as.map NewerAnnotation.ann) }, []) := by
  induction as generalizing st f with
  | nil =>
    obtain ⟨f, rfl⟩ : ∃ g, f = g + 1 := ⟨f - 1, by simp at hf; omega⟩
    simp [decLoop, hst, annotationsWire]
  | cons a as ih =>
    obtain ⟨h1, h2, h3, h4⟩ := h a (List.mem_cons_self ..)
    have hn := length_encUnknowns a.next
    have ht := length_encTag_pos 5 3
    rw [List.flatMap_cons, List.length_append, NewerAnnotation.enc] at hf
    simp only [List.length_append] at hf
    obtain ⟨g, rfl⟩ : ∃ g, f = (a.next.length + g) + 1 := ⟨f - 1 - a.next.length, by omega⟩
    rw [List.flatMap_cons, NewerAnnotation.enc, List.append_assoc]
    rw [decLoop_step (st' := { st with annotation := st.annotation ++ [⟨some a.ann.key, a.ann.value⟩] }) (by omega) (by omega) (by omega) (by omega)
      (packetField_newerAnnotation st h1 h2 h3 (hfit a (List.mem_cons_self ..)) _)]
    rw [decLoop_unknowns packetField_skips h4]
    rw [ih (fun b hb => h b (List.mem_cons_of_mem _ hb)) (fun b hb => hfit b (List.mem_cons_of_mem _ hb)) _ (by simpa using hst) _ (by omega)]
    simp [annotationsWire]

theorem flatMap_length_le {α : Type} (f : α → Bytes) {l : List α} {a : α} (h : a ∈ l) : (f a).length ≤ (l.flatMap f).length := by
  induction l with
  | nil => cases h
  | cons b l ih =>
    simp only [List.flatMap_cons, List.length_append]
    rcases List.mem_cons.1 h with rfl | h
    · omega
    · have := ih h; omega

theorem unmarshal_newer {p : NewerPacket} (h : p.Good) : unmarshal p.enc = some (newCollectPacket p.known.1 p.known.2) := by
  have hlim := h.limit
  have hfit : ∀ a ∈ p.anns, annotationFits a.ann := by
    intro a ha
    have h1 := flatMap_length_le NewerAnnotation.enc ha
    have h2 : (p.anns.flatMap NewerAnnotation.enc).length ≤ p.enc.length := by simp only [NewerPacket.enc, List.length_append]; omega
    have h3 : a.ann.key.length ≤ a.enc.length := by simp only [NewerAnnotation.enc, encBytes, List.length_append]; omega
    refine ⟨by omega, fun v hv => ?_⟩
    have h4 : v.length ≤ a.enc.length := by simp only [NewerAnnotation.enc, hv, encOpt, encBytes, List.length_append]; omega
    omega
  have e : p.enc = encUnknowns p.before ++ (encTag 1 3 ++ (encUnknowns p.first ++ encFixed64 2 p.id.trace ++ encUnknowns p.second ++ encFixed64 3 p.id.span ++
      encUnknowns p.third ++ encFixed64 4 p.id.parent ++ encUnknowns p.fourth ++ encTag 1 4) ++ (encUnknowns p.after ++
      p.anns.flatMap NewerAnnotation.enc)) := by simp [NewerPacket.enc]
  have l1 := length_encUnknowns p.before
  have l2 := length_encUnknowns p.after
  have l3 := length_encTag_pos 1 3
  obtain ⟨g, hg, hg'⟩ : ∃ g, p.enc.length + 1 = p.before.length + ((p.after.length + g) + 1) ∧ (p.anns.flatMap NewerAnnotation.enc).length < g := by
    refine ⟨p.enc.length - (p.before.length + p.after.length), ?_, ?_⟩ <;>
    · simp only [NewerPacket.enc, List.length_append]
      omega
  rw [unmarshal, hg, e]
  rw [decLoop_unknowns packetField_skips h.before]
  rw [decLoop_step (st' := { spanid := some p.id.wire }) (by omega) (by omega) (by omega) (by omega)
    (packetField_newerSpan {} h _)]
  rw [decLoop_unknowns packetField_skips h.after]
  rw [decNewerAnnotations _ h.anns hfit _ rfl _ hg']
  rfl

end Appdash
