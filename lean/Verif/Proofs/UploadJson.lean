import Verif.Spec.UploadJson
import Verif.Proofs.JsonText
import Verif.Proofs.Base64Spec
import Verif.Properties.Identifiers

/-! # What uploaded JSON stands for -/

namespace Appdash

open Spec

/-! ## Names -/

/-- A letter. -/
def IsLetter (c : UInt8) : Prop := (65 ≤ c.toNat ∧ c.toNat ≤ 90) ∨ (97 ≤ c.toNat ∧ c.toNat ≤ 122)

instance (c : UInt8) : Decidable (IsLetter c) := by unfold IsLetter; infer_instance

theorem foldName_low {c : UInt8} (h : c.toNat < 128) (k : Bytes) : foldName (c :: k) = foldByte c :: foldName k := by
  rw [foldName.eq_def]
  split
  · rename_i he; cases he
  · rename_i he; cases he; exact absurd h (by decide)
  · rename_i he; cases he; exact absurd h (by decide)
  · rename_i he; cases he; rfl

theorem spelling_folds (c : UInt8) (h : IsLetter c) : ∀ p ∈ spellings c, ∀ k, foldName (p ++ k) = foldByte c :: foldName k := by
  have : ∀ p ∈ spellings c, (p = [0xC5, 0xBF] ∧ foldByte c = 115) ∨ (p = [0xE2, 0x84, 0xAA] ∧ foldByte c = 107) ∨
      (p = [p.headD 0] ∧ (p.headD 0).toNat < 128 ∧ foldByte (p.headD 0) = foldByte c) := by
    revert h
    exact byte_cases (fun c => IsLetter c → ∀ p ∈ spellings c, (p = [0xC5, 0xBF] ∧ foldByte c = 115) ∨
      (p = [0xE2, 0x84, 0xAA] ∧ foldByte c = 107) ∨ (p = [p.headD 0] ∧ (p.headD 0).toNat < 128 ∧ foldByte (p.headD 0) = foldByte c))
      (by decide +kernel) c
  intro p hp k
  rcases this p hp with ⟨rfl, h1⟩ | ⟨rfl, h1⟩ | ⟨h1, h2, h3⟩
  · rw [h1]; rfl
  · rw [h1]; rfl
  · rw [h1, List.singleton_append, foldName_low h2, h3]

theorem foldByte_letter (c d : UInt8) (h : IsLetter c) (he : foldByte d = foldByte c) : [d] ∈ spellings c := by
  have h1 : ∀ c : UInt8, IsLetter c → [foldByte c] ∈ spellings c ∧ [UInt8.ofNat ((foldByte c).toNat - 32)] ∈ spellings c ∧
      97 ≤ (foldByte c).toNat ∧ (foldByte c).toNat ≤ 122 :=
    byte_cases (fun c => IsLetter c → [foldByte c] ∈ spellings c ∧ [UInt8.ofNat ((foldByte c).toNat - 32)] ∈ spellings c ∧
      97 ≤ (foldByte c).toNat ∧ (foldByte c).toNat ≤ 122) (by decide +kernel)
  have h2 : ∀ d : UInt8, 97 ≤ (foldByte d).toNat → (foldByte d).toNat ≤ 122 →
      d = foldByte d ∨ d = UInt8.ofNat ((foldByte d).toNat - 32) :=
    byte_cases (fun d => 97 ≤ (foldByte d).toNat → (foldByte d).toNat ≤ 122 →
      d = foldByte d ∨ d = UInt8.ofNat ((foldByte d).toNat - 32)) (by decide +kernel)
  obtain ⟨g1, g2, g3, g4⟩ := h1 c h
  rw [← he] at g1 g2 g3 g4
  rcases h2 d g3 g4 with e | e
  · rw [e]; exact g1
  · rw [e]; exact g2

theorem fold_spelling (c : UInt8) (h : IsLetter c) (key r : Bytes) (he : foldName key = foldByte c :: r) :
    ∃ p ∈ spellings c, ∃ k, key = p ++ k ∧ foldName k = r := by
  have hs : foldByte c = 115 → [0xC5, 0xBF] ∈ spellings c := by
    revert h
    exact byte_cases (fun c => IsLetter c → foldByte c = 115 → [0xC5, 0xBF] ∈ spellings c) (by decide +kernel) c
  have hk : foldByte c = 107 → [0xE2, 0x84, 0xAA] ∈ spellings c := by
    revert h
    exact byte_cases (fun c => IsLetter c → foldByte c = 107 → [0xE2, 0x84, 0xAA] ∈ spellings c) (by decide +kernel) c
  rw [foldName.eq_def] at he
  split at he
  · cases he
  · rename_i k
    simp only [List.cons.injEq] at he
    exact ⟨_, hs he.1.symm, k, rfl, he.2⟩
  · rename_i k
    simp only [List.cons.injEq] at he
    exact ⟨_, hk he.1.symm, k, rfl, he.2⟩
  · rename_i d k _ _
    simp only [List.cons.injEq] at he
    exact ⟨[d], foldByte_letter c d h he.1, k, rfl, he.2⟩

theorem spelled_iff (name : Bytes) : (∀ c ∈ name, IsLetter c) → ∀ key, key ∈ spelled name ↔ foldName key = name.map foldByte := by
  induction name with
  | nil =>
    intro _ key
    simp only [spelled, List.mem_singleton, List.map_nil]
    constructor
    · rintro rfl; rfl
    · intro h
      unfold foldName at h
      split at h
      · rfl
      all_goals cases h
  | cons c name ih =>
    intro hl key
    have ih := ih fun x hx => hl x (by simp [hx])
    simp only [spelled, List.mem_flatMap, List.mem_map, List.map_cons]
    constructor
    · rintro ⟨p, hp, k, hk, rfl⟩
      rw [spelling_folds c (hl c (by simp)) p hp, (ih k).1 hk]
    · intro h
      obtain ⟨p, hp, k, rfl, hk⟩ := fold_spelling c (hl c (by simp)) key _ h
      exact ⟨p, hp, k, (ih k).2 hk, rfl⟩

theorem isField_spelled {name : Bytes} (h : ∀ c ∈ name, IsLetter c) (key : Bytes) :
    isField name key = (spelled name).contains key := by
  rw [Bool.eq_iff_iff, List.contains_iff_mem, spelled_iff name h key]
  simp [isField]

theorem valuesOf_cons {name : Bytes} (h : ∀ c ∈ name, IsLetter c) (m : Bytes × JVal) (ms : List (Bytes × JVal)) :
    valuesOf name (m :: ms) = if isField name m.1 = true then m.2 :: valuesOf name ms else valuesOf name ms := by
  unfold valuesOf
  rw [List.filter_cons, isField_spelled h]
  split <;> simp_all

theorem isField_ne {a b key : Bytes} (h : isField a key = true) (hn : a.map foldByte ≠ b.map foldByte) : isField b key = false := by
  simp only [isField, decide_eq_true_eq, decide_eq_false_iff_not] at *
  exact fun e => hn (h.symm.trans e)

/-! ## The last of several values -/

/-- Decode every value; keep the last. -/
def lastM {α : Type} (dec : JVal → Option α) : α → List JVal → Option α
  | old, [] => some old
  | _, v :: vs => (dec v).bind fun x => lastM dec x vs

theorem lastM_iff {α : Type} {R : JVal → α → Prop} {dec : JVal → Option α} (vs : List JVal) :
    (∀ v ∈ vs, ∀ a, dec v = some a ↔ R v a) → ∀ old new, lastM dec old vs = some new ↔ LastOf R old vs new := by
  induction vs with
  | nil =>
    intro _ old new
    simp only [lastM, Option.some.injEq]
    constructor
    · rintro rfl; exact ⟨fun _ => old, by simp, rfl⟩
    · rintro ⟨f, -, h⟩; exact h.symm
  | cons v vs ih =>
    intro hR old new
    have ih := ih fun u hu => hR u (by simp [hu])
    rw [lastM, Option.bind_eq_some_iff]
    constructor
    · rintro ⟨x, hx, h⟩
      obtain ⟨f, h1, h2⟩ := (ih x new).1 h
      refine ⟨fun u => (dec u).getD x, ?_, ?_⟩
      · intro u hu
        have : ∃ a, dec u = some a := by
          rcases List.mem_cons.1 hu with rfl | hu'
          · exact ⟨x, hx⟩
          · exact ⟨f u, (hR u hu _).2 (h1 u hu')⟩
        obtain ⟨a, ha⟩ := this
        simpa [ha] using (hR u hu a).1 ha
      · rw [h2, List.getLast?_cons]
        cases hl : vs.getLast? with
        | none => simp [hx]
        | some u =>
          have hu := List.mem_of_getLast? hl
          simp [(hR u (by simp [hu]) _).2 (h1 u hu)]
    · rintro ⟨f, h1, h2⟩
      refine ⟨f v, (hR v (by simp) _).2 (h1 v (by simp)), (ih _ _).2 ⟨f, fun u hu => h1 u (by simp [hu]), ?_⟩⟩
      rw [h2, List.getLast?_cons]
      cases vs.getLast? <;> rfl

/-! ## Parts of a trace -/

theorem decodeSpanIDMembers_eq (ms : List (Bytes × JVal)) : ∀ id : SpanID, decodeSpanIDMembers id ms =
    (lastM (fun v => unmarshalJSONID v.toScalar) id.trace (valuesOf b!"Trace" ms)).bind fun t =>
    (lastM (fun v => unmarshalJSONID v.toScalar) id.span (valuesOf b!"Span" ms)).bind fun s =>
    (lastM (fun v => unmarshalJSONID v.toScalar) id.parent (valuesOf b!"Parent" ms)).bind fun p => some ⟨t, s, p⟩ := by
  induction ms with
  | nil => intro id; rfl
  | cons m ms ih =>
    intro id
    rw [decodeSpanIDMembers, valuesOf_cons (by decide), valuesOf_cons (by decide), valuesOf_cons (by decide)]
    by_cases h1 : isField b!"Trace" m.1 = true
    · rw [if_pos h1, if_pos h1, isField_ne h1 (b := b!"Span") (by decide), isField_ne h1 (b := b!"Parent") (by decide)]
      simp only [lastM, Bool.false_eq_true, if_false]
      cases unmarshalJSONID m.2.toScalar with
      | none => rfl
      | some i => simp only [Option.bind_some, ih]
    · rw [if_neg h1, if_neg h1]
      by_cases h2 : isField b!"Span" m.1 = true
      · rw [if_pos h2, if_pos h2, isField_ne h2 (b := b!"Parent") (by decide)]
        simp only [lastM, Bool.false_eq_true, if_false]
        cases unmarshalJSONID m.2.toScalar with
        | none =>
          cases lastM (fun v => unmarshalJSONID v.toScalar) id.trace (valuesOf b!"Trace" ms) <;> rfl
        | some i => simp only [Option.bind_some, ih]
      · rw [if_neg h2, if_neg h2]
        by_cases h3 : isField b!"Parent" m.1 = true
        · rw [if_pos h3, if_pos h3]
          simp only [lastM]
          cases unmarshalJSONID m.2.toScalar with
          | none =>
            cases lastM (fun v => unmarshalJSONID v.toScalar) id.trace (valuesOf b!"Trace" ms) <;>
            cases lastM (fun v => unmarshalJSONID v.toScalar) id.span (valuesOf b!"Span" ms) <;> rfl
          | some i => simp only [Option.bind_some, ih]
        · rw [if_neg h3, if_neg h3, ih]

theorem decodeAnnotationMembers_eq (ms : List (Bytes × JVal)) : ∀ a : JAnn, decodeAnnotationMembers a ms =
    ((valuesOf b!"Key" ms).foldlM decodeString a.key).bind fun k =>
    ((valuesOf b!"Value" ms).foldlM decodeBytes a.value).bind fun v => some ⟨k, v⟩ := by
  induction ms with
  | nil => intro a; rfl
  | cons m ms ih =>
    intro a
    rw [decodeAnnotationMembers, valuesOf_cons (by decide), valuesOf_cons (by decide)]
    by_cases h1 : isField b!"Key" m.1 = true
    · rw [if_pos h1, if_pos h1, isField_ne h1 (b := b!"Value") (by decide)]
      simp only [Bool.false_eq_true, if_false, List.foldlM_cons]
      cases decodeString a.key m.2 with
      | none => rfl
      | some k => simp only [ih, Option.bind_eq_bind, Option.bind_some]
    · rw [if_neg h1, if_neg h1]
      by_cases h2 : isField b!"Value" m.1 = true
      · rw [if_pos h2, if_pos h2]
        simp only [List.foldlM_cons]
        cases decodeBytes a.value m.2 with
        | none => cases (valuesOf b!"Key" ms).foldlM decodeString a.key <;> rfl
        | some v => simp only [ih, Option.bind_eq_bind, Option.bind_some]
      · rw [if_neg h2, if_neg h2, ih]

theorem decodeTraceMembers_eq (ms : List (Bytes × JVal)) : ∀ (id : SpanID) (as : Slots JAnn) (sub : Slots JTrace),
    decodeTraceMembers id as sub ms =
    ((valuesOf b!"ID" ms).foldlM decodeSpanID id).bind fun id =>
    ((valuesOf b!"Annotations" ms).foldlM decodeAnnotations as).bind fun as =>
    ((valuesOf b!"Sub" ms).foldlM decodeSubInto sub).bind fun sub => some (.node id as sub.live sub.spare) := by
  induction ms with
  | nil => intro id as sub; rw [decodeTraceMembers]; rfl
  | cons m ms ih =>
    intro id as sub
    obtain ⟨k, v⟩ := m
    rw [decodeTraceMembers, valuesOf_cons (by decide), valuesOf_cons (by decide), valuesOf_cons (by decide)]
    by_cases h1 : isField b!"ID" k = true
    · rw [if_pos h1, if_pos h1, isField_ne h1 (b := b!"Annotations") (by decide), isField_ne h1 (b := b!"Sub") (by decide)]
      simp only [Bool.false_eq_true, if_false, List.foldlM_cons]
      cases decodeSpanID id v with
      | none => rfl
      | some i => simp only [Option.bind_eq_bind, Option.bind_some, ih]
    · rw [if_neg h1, if_neg h1]
      by_cases h2 : isField b!"Annotations" k = true
      · rw [if_pos h2, if_pos h2, isField_ne h2 (b := b!"Sub") (by decide)]
        simp only [Bool.false_eq_true, if_false, List.foldlM_cons]
        cases decodeAnnotations as v with
        | none => cases (valuesOf b!"ID" ms).foldlM decodeSpanID id <;> rfl
        | some i => simp only [Option.bind_eq_bind, Option.bind_some, ih]
      · rw [if_neg h2, if_neg h2]
        by_cases h3 : isField b!"Sub" k = true
        · rw [if_pos h3, if_pos h3]
          simp only [List.foldlM_cons]
          cases decodeSubInto sub v with
          | none =>
            cases (valuesOf b!"ID" ms).foldlM decodeSpanID id <;>
            cases (valuesOf b!"Annotations" ms).foldlM decodeAnnotations as <;> rfl
          | some i => simp only [Option.bind_eq_bind, Option.bind_some, ih]
        · rw [if_neg h3, if_neg h3, ih]

theorem readsID_iff (v : JVal) (i : ID) : unmarshalJSONID v.toScalar = some i ↔ ReadsID v i := by
  cases v with
  | null =>
    simp only [JVal.toScalar, ReadsID]
    constructor
    · intro h
      refine .inr (.inr ⟨trivial, ?_⟩)
      cases h
      rfl
    · rintro (⟨s, h, -⟩ | h | ⟨-, rfl⟩)
      · cases h
      · cases h
      · rfl
  | str s =>
    rw [JVal.toScalar, id_json_string]
    simp [ReadsID]
  | num o =>
    cases o with
    | none => simp [JVal.toScalar, ReadsID, unmarshalJSONID, parseJSONString, parseJSONInt]
    | some n =>
      rw [JVal.toScalar, id_json_int]
      simp only [ReadsID, JVal.num.injEq, Option.some.injEq, reduceCtorEq, false_and, exists_false, false_or, or_false]
      have := i.toNat_lt
      constructor
      · rintro ⟨-, -, h⟩; exact h.symm
      · rintro rfl; exact ⟨by omega, by omega, rfl⟩
  | bool b => simp [JVal.toScalar, ReadsID, unmarshalJSONID, parseJSONString, parseJSONInt]
  | arr l => simp [JVal.toScalar, ReadsID, unmarshalJSONID, parseJSONString, parseJSONInt]
  | obj l => simp [JVal.toScalar, ReadsID, unmarshalJSONID, parseJSONString, parseJSONInt]

theorem readsSpanID_iff (old : SpanID) (v : JVal) (new : SpanID) : decodeSpanID old v = some new ↔ ReadsSpanID old v new := by
  cases v with
  | null => simp [decodeSpanID, ReadsSpanID, eq_comm]
  | obj ms =>
    have key := fun o n vs => lastM_iff (R := ReadsID) (dec := fun v => unmarshalJSONID v.toScalar) vs
      (fun v _ a => readsID_iff v a) o n
    simp only [decodeSpanID, decodeSpanIDMembers_eq, Option.bind_eq_some_iff, key, ReadsSpanID, reduceCtorEq, false_and, false_or,
      JVal.obj.injEq, exists_eq_left', Option.some.injEq]
    constructor
    · rintro ⟨t, h1, s, h2, p, h3, rfl⟩; exact ⟨h1, h2, h3⟩
    · rintro ⟨h1, h2, h3⟩; exact ⟨_, h1, _, h2, _, h3, rfl⟩
  | bool b => simp [decodeSpanID, ReadsSpanID]
  | num b => simp [decodeSpanID, ReadsSpanID]
  | str b => simp [decodeSpanID, ReadsSpanID]
  | arr b => simp [decodeSpanID, ReadsSpanID]

theorem readsMany_iff {α : Type} {R : α → JVal → α → Prop} {dec : α → JVal → Option α} (vs : List JVal) :
    (∀ v ∈ vs, ∀ old new, dec old v = some new ↔ R old v new) → ∀ old new, vs.foldlM dec old = some new ↔ ReadsMany R old vs new := by
  induction vs with
  | nil => intro _ old new; simp [ReadsMany, eq_comm]
  | cons v vs ih =>
    intro hR old new
    rw [List.foldlM_cons, Option.bind_eq_bind, Option.bind_eq_some_iff]
    simp only [hR v (by simp), ih fun u hu => hR u (by simp [hu]), ReadsMany]

theorem readsString_iff (v : JVal) (old new : Bytes) : decodeString old v = some new ↔ ReadsString old v new := by
  cases v <;> simp [decodeString, ReadsString, eq_comm]

theorem decodeElems_iff {α : Type} {R : α → JVal → α → Prop} {dec : α → JVal → Option α} (zero : α)
    (hR : ∀ old v new, dec old v = some new ↔ R old v new) (l : List JVal) : ∀ (old xs rest : List α),
    decodeElems dec zero old l = some (xs, rest) ↔ xs.length = l.length ∧ rest = old.drop l.length ∧
      ∀ (i : Nat) (x : JVal) (y : α), l[i]? = some x → xs[i]? = some y → R (old[i]?.getD zero) x y := by
  induction l with
  | nil =>
    intro old xs rest
    simp only [decodeElems, Option.some.injEq, Prod.mk.injEq, List.length_nil, List.length_eq_zero_iff, List.drop_zero]
    constructor
    · rintro ⟨rfl, rfl⟩; exact ⟨rfl, rfl, by simp⟩
    · rintro ⟨rfl, rfl, -⟩; exact ⟨rfl, rfl⟩
  | cons v l ih =>
    intro old xs rest
    have hd : old.headD zero = old[0]?.getD zero := by cases old <;> rfl
    have htl : ∀ i : Nat, old.tail[i]? = old[i + 1]? := by intro i; cases old <;> simp
    have hdr : old.tail.drop l.length = old.drop (l.length + 1) := by cases old <;> simp
    simp only [decodeElems]
    constructor
    · intro h
      split at h
      · cases h
      · rename_i x hx
        split at h
        · cases h
        · rename_i ys r hys
          simp only [Option.some.injEq, Prod.mk.injEq] at h
          obtain ⟨rfl, rfl⟩ := h
          obtain ⟨h1, h2, h3⟩ := (ih _ _ _).1 hys
          refine ⟨by simp [h1], by rw [h2, hdr]; rfl, ?_⟩
          intro i
          cases i with
          | zero =>
            intro a b ha hb
            simp only [List.getElem?_cons_zero, Option.some.injEq] at ha hb
            subst ha hb
            rw [← hd]
            exact (hR _ _ _).1 hx
          | succ i =>
            intro a b ha hb
            rw [← htl]
            exact h3 i a b (by simpa using ha) (by simpa using hb)
    · rintro ⟨h1, h2, h3⟩
      cases xs with
      | nil => cases h1
      | cons x xs =>
        have hx := (hR _ _ _).2 (h3 0 v x rfl rfl)
        have hxs := (ih old.tail xs rest).2 ⟨by simpa using h1, by rw [h2, hdr]; rfl, fun i a b ha hb => by
          rw [htl]; exact h3 (i + 1) a b (by simpa using ha) (by simpa using hb)⟩
        rw [hd, hx]
        simp only [hxs]

theorem readsSlots_iff {α : Type} {R : α → JVal → α → Prop} {dec : α → JVal → Option α} (zero : α)
    (hR : ∀ old v new, dec old v = some new ↔ R old v new) (old : Slots α) (l : List JVal) (new : Slots α) :
    decodeSlice dec zero old l = some new ↔ ReadsSlots R zero old (.arr l) new := by
  cases l with
  | nil => simp [decodeSlice, ReadsSlots, eq_comm]
  | cons v l =>
    have key := decodeElems_iff zero hR (v :: l) (old.live ++ old.spare) new.live new.spare
    simp only [ReadsSlots, reduceCtorEq, JVal.arr.injEq, or_self, false_and, false_or, exists_eq_left', ne_eq, not_false_eq_true, true_and]
    rw [← key, decodeSlice]
    constructor
    · intro h
      split at h
      · cases h
      · rename_i xs rest he
        rw [he]
        cases h
        rfl
    · intro h
      rw [h]

theorem readsByte_iff (old : UInt8) (v : JVal) (b : UInt8) : decodeByte old v = some b ↔ ReadsByte old v b := by
  cases v with
  | num o =>
    cases o with
    | none => simp [decodeByte, ReadsByte]
    | some i =>
      simp only [decodeByte, ReadsByte, JVal.num.injEq, Option.some.injEq, reduceCtorEq, false_and, or_false]
      constructor
      · intro h
        split at h
        · rename_i hi
          cases h
          simp only [UInt8.toNat_ofNat']
          omega
        · cases h
      · rintro rfl
        have := b.toNat_lt
        rw [if_pos (by omega)]
        simp
  | null => simp [decodeByte, ReadsByte, eq_comm]
  | bool _ => simp [decodeByte, ReadsByte]
  | str _ => simp [decodeByte, ReadsByte]
  | arr _ => simp [decodeByte, ReadsByte]
  | obj _ => simp [decodeByte, ReadsByte]

theorem readsValue_iff (old : Option (Slots UInt8)) (v : JVal) (new : Option (Slots UInt8)) :
    decodeBytes old v = some new ↔ ReadsValue old v new := by
  cases v with
  | null => simp [decodeBytes, ReadsValue, eq_comm]
  | str s =>
    simp only [decodeBytes, ReadsValue, Option.map_eq_some_iff, base64_iff]
    constructor
    · rintro ⟨b, h, rfl⟩; exact .inr (.inl ⟨s, b, rfl, h, rfl⟩)
    · rintro (⟨h, -⟩ | ⟨s', b, h, h1, rfl⟩ | ⟨l, b, h, -⟩)
      · cases h
      · cases h; exact ⟨b, h1, rfl⟩
      · cases h
  | arr l =>
    simp only [decodeBytes, ReadsValue, Option.map_eq_some_iff, readsSlots_iff 0 readsByte_iff]
    constructor
    · rintro ⟨n, h, rfl⟩; exact .inr (.inr ⟨l, n, rfl, rfl, h⟩)
    · rintro (⟨h, -⟩ | ⟨s', b, h, -⟩ | ⟨l', n, h, rfl, h1⟩)
      · cases h
      · cases h
      · exact ⟨n, h1, rfl⟩
  | bool _ => simp [decodeBytes, ReadsValue]
  | num _ => simp [decodeBytes, ReadsValue]
  | obj _ => simp [decodeBytes, ReadsValue]

theorem readsAnnotation_iff (old : JAnn) (v : JVal) (a : JAnn) : decodeAnnotation old v = some a ↔ ReadsAnnotation old v a := by
  cases v with
  | null => simp [decodeAnnotation, ReadsAnnotation, eq_comm]
  | obj ms =>
    have key := fun vs => readsMany_iff (R := ReadsValue) (dec := decodeBytes) vs (fun v _ a b => readsValue_iff a v b)
    have key2 := fun vs => readsMany_iff (R := ReadsString) (dec := decodeString) vs (fun v _ a b => readsString_iff v a b)
    simp only [decodeAnnotation, decodeAnnotationMembers_eq, Option.bind_eq_some_iff, key, key2, ReadsAnnotation, reduceCtorEq, false_and,
      false_or, JVal.obj.injEq, exists_eq_left', Option.some.injEq]
    constructor
    · rintro ⟨t, h1, s, h2, rfl⟩; exact ⟨h1, h2⟩
    · rintro ⟨h1, h2⟩; exact ⟨_, h1, _, h2, rfl⟩
  | bool b => simp [decodeAnnotation, ReadsAnnotation]
  | num b => simp [decodeAnnotation, ReadsAnnotation]
  | str b => simp [decodeAnnotation, ReadsAnnotation]
  | arr b => simp [decodeAnnotation, ReadsAnnotation]

theorem readsAnnotations_iff (v : JVal) (old as : Slots JAnn) : decodeAnnotations old v = some as ↔ ReadsAnnotations old v as := by
  cases v with
  | null => simp [decodeAnnotations, ReadsAnnotations, ReadsSlots, eq_comm]
  | arr l => exact readsSlots_iff _ readsAnnotation_iff old l as
  | bool b => simp [decodeAnnotations, ReadsAnnotations, ReadsSlots]
  | num b => simp [decodeAnnotations, ReadsAnnotations, ReadsSlots]
  | str b => simp [decodeAnnotations, ReadsAnnotations, ReadsSlots]
  | obj b => simp [decodeAnnotations, ReadsAnnotations, ReadsSlots]

/-! ## Traces -/

theorem decodeTraceList_rest (l : List JVal) : ∀ (old ts rest : List JTrace), decodeTraceList old l = some (ts, rest) →
    rest = old.drop l.length := by
  induction l with
  | nil => intro old ts rest h; simp only [decodeTraceList, Option.some.injEq, Prod.mk.injEq] at h; simp [h.2]
  | cons v l ih =>
    intro old ts rest h
    simp only [decodeTraceList] at h
    split at h
    · cases h
    · split at h
      · cases h
      · rename_i ts' r' h2
        simp only [Option.some.injEq, Prod.mk.injEq] at h
        rw [← h.2, ih _ _ _ h2]
        cases old <;> simp

theorem valuesOf_size {name : Bytes} (ms : List (Bytes × JVal)) : sizeOf (valuesOf name ms) ≤ sizeOf ms := by
  induction ms with
  | nil => simp [valuesOf]
  | cons m ms ih =>
    have hm : sizeOf m = 1 + sizeOf m.1 + sizeOf m.2 := rfl
    unfold valuesOf at ih ⊢
    rw [List.filter_cons]
    split
    · simp only [List.map_cons, List.cons.sizeOf_spec]; omega
    · simp only [List.cons.sizeOf_spec]; omega

mutual
theorem traceRead_iff (v : JVal) (old t : JTrace) : decodeTraceInto old v = some t ↔ TraceRead old v t := by
  match v with
  | .null =>
    rw [decodeTraceInto]
    constructor
    · intro h; cases h; exact .null _
    · intro h; cases h; rfl
  | .obj ms =>
    have hsz : sizeOf (valuesOf b!"Sub" ms) < sizeOf (JVal.obj ms) := by
      have := valuesOf_size (name := b!"Sub") ms
      simp only [JVal.obj.sizeOf_spec]; omega
    have key := fun a b => tracesRead_iff (valuesOf b!"Sub" ms) a b
    have key1 := readsMany_iff (R := ReadsSpanID) (dec := decodeSpanID) (valuesOf b!"ID" ms) (fun v _ a b => readsSpanID_iff a v b)
    have key2 := readsMany_iff (R := ReadsAnnotations) (dec := decodeAnnotations) (valuesOf b!"Annotations" ms)
      (fun v _ a b => readsAnnotations_iff v a b)
    rw [decodeTraceInto, decodeTraceMembers_eq]
    simp only [Option.bind_eq_some_iff, key, key1, key2, Option.some.injEq]
    constructor
    · rintro ⟨id, h1, as, h2, ts, h3, rfl⟩
      exact .obj h1 h2 h3
    · intro h
      cases h with
      | obj h1 h2 h3 => exact ⟨_, h1, _, h2, _, h3, rfl⟩
  | .bool _ => exact ⟨fun h => by simp [decodeTraceInto] at h, fun h => by cases h⟩
  | .num _ => exact ⟨fun h => by simp [decodeTraceInto] at h, fun h => by cases h⟩
  | .str _ => exact ⟨fun h => by simp [decodeTraceInto] at h, fun h => by cases h⟩
  | .arr _ => exact ⟨fun h => by simp [decodeTraceInto] at h, fun h => by cases h⟩
termination_by sizeOf v
decreasing_by
  clear * - hsz
  simpa using hsz
theorem tracesRead_iff (vs : List JVal) (old new : Slots JTrace) : vs.foldlM decodeSubInto old = some new ↔ TracesRead old vs new := by
  match vs with
  | [] =>
    simp only [List.foldlM_nil, Option.pure_def, Option.some.injEq]
    constructor
    · rintro rfl; exact .nil _
    · intro h; cases h; rfl
  | v :: vs =>
    rw [List.foldlM_cons, Option.bind_eq_bind, Option.bind_eq_some_iff]
    match v with
    | .null =>
      constructor
      · rintro ⟨mid, h1, h2⟩
        simp only [decodeSubInto, Option.some.injEq] at h1
        subst h1
        exact .empty (.inl rfl) ((tracesRead_iff vs _ _).1 h2)
      · intro h
        cases h with
        | empty _ hs => exact ⟨_, by rw [decodeSubInto], (tracesRead_iff vs _ _).2 hs⟩
    | .arr [] =>
      constructor
      · rintro ⟨mid, h1, h2⟩
        simp only [decodeSubInto, Option.some.injEq] at h1
        subst h1
        exact .empty (.inr rfl) ((tracesRead_iff vs _ _).1 h2)
      · intro h
        cases h with
        | empty _ hs => exact ⟨_, by rw [decodeSubInto], (tracesRead_iff vs _ _).2 hs⟩
        | arr hl _ _ => exact absurd rfl hl
    | .arr (w :: ws) =>
      constructor
      · rintro ⟨mid, h1, h2⟩
        simp only [decodeSubInto] at h1
        split at h1
        · cases h1
        · rename_i ts rest he
          simp only [Option.some.injEq] at h1
          subst h1
          have hr := decodeTraceList_rest _ _ _ _ he
          subst hr
          exact .arr (by simp) ((listRead_iff (w :: ws) _ _).1 ⟨_, he⟩) ((tracesRead_iff vs _ _).1 h2)
      · intro h
        cases h with
        | empty hv hs => rcases hv with hv | hv <;> cases hv
        | arr hl h hs =>
          obtain ⟨rest, he⟩ := (listRead_iff (w :: ws) _ _).2 h
          have hr := decodeTraceList_rest _ _ _ _ he
          subst hr
          refine ⟨_, ?_, (tracesRead_iff vs _ _).2 hs⟩
          simp only [decodeSubInto, he]
    | .bool _ =>
      exact ⟨fun ⟨_, h, _⟩ => by simp [decodeSubInto] at h, fun h => by cases h with | empty hv _ => rcases hv with hv | hv <;> cases hv⟩
    | .num _ =>
      exact ⟨fun ⟨_, h, _⟩ => by simp [decodeSubInto] at h, fun h => by cases h with | empty hv _ => rcases hv with hv | hv <;> cases hv⟩
    | .str _ =>
      exact ⟨fun ⟨_, h, _⟩ => by simp [decodeSubInto] at h, fun h => by cases h with | empty hv _ => rcases hv with hv | hv <;> cases hv⟩
    | .obj _ =>
      exact ⟨fun ⟨_, h, _⟩ => by simp [decodeSubInto] at h, fun h => by cases h with | empty hv _ => rcases hv with hv | hv <;> cases hv⟩
termination_by sizeOf vs
theorem listRead_iff (l : List JVal) (old ts : List JTrace) : (∃ rest, decodeTraceList old l = some (ts, rest)) ↔ ListRead old l ts := by
  match l with
  | [] =>
    simp only [decodeTraceList, Option.some.injEq, Prod.mk.injEq]
    constructor
    · rintro ⟨_, rfl, -⟩; exact .nil _
    · intro h; cases h; exact ⟨_, rfl, rfl⟩
  | v :: vs =>
    constructor
    · rintro ⟨rest, h⟩
      simp only [decodeTraceList] at h
      split at h
      · cases h
      · rename_i t ht
        split at h
        · cases h
        · rename_i ts' r' hts
          simp only [Option.some.injEq, Prod.mk.injEq] at h
          obtain ⟨rfl, rfl⟩ := h
          exact .cons ((traceRead_iff v _ t).1 ht) ((listRead_iff vs _ _).1 ⟨_, hts⟩)
    · intro h
      cases h with
      | cons h hs =>
        obtain ⟨rest, hts⟩ := (listRead_iff vs _ _).2 hs
        refine ⟨rest, ?_⟩
        simp only [decodeTraceList, (traceRead_iff v _ _).2 h, hts]
termination_by sizeOf l
end

theorem readsTrace_iff (v : JVal) (p : PTree) : decodeTrace v = some p ↔ ReadsTrace v p := by
  simp only [decodeTrace, ReadsTrace, Option.map_eq_some_iff, traceRead_iff]
  constructor
  · rintro ⟨t, h, rfl⟩; exact ⟨t, h, rfl⟩
  · rintro ⟨t, h, rfl⟩; exact ⟨t, h, rfl⟩

theorem readsTraces_iff (v : JVal) (ps : List PTree) : decodeSub v = some ps ↔ ReadsTraces v ps := by
  have key := fun s => tracesRead_iff [v] ⟨[], []⟩ s
  simp only [List.foldlM_cons, List.foldlM_nil, Option.bind_eq_bind, Option.pure_def] at key
  have e : ∀ o : Option (Slots JTrace), (o.bind fun x => some x) = o := fun o => by cases o <;> rfl
  simp only [e] at key
  simp only [decodeSub, ReadsTraces, Option.map_eq_some_iff, ← key]
  constructor
  · rintro ⟨t, h, rfl⟩; exact ⟨t, h, rfl⟩
  · rintro ⟨t, h, rfl⟩; exact ⟨t, h, rfl⟩

end Appdash
