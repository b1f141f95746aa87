import Verif.Proofs.Base64Spec
import Verif.Proofs.ID
import Verif.Proofs.Utf8
import Verif.Spec.ExportForm
import Verif.Model.Json

/-!
# The exported form of a trace: auxiliary lemmas
-/

namespace Appdash

open Spec

theorem lowerDigit_inj {c d : UInt8} (hc : IsLowerHex c) (hd : IsLowerHex d) (h : hexDigitValue c = hexDigitValue d) : c = d := by
  have key : ∀ n m : Fin 256, ((48 ≤ n.val ∧ n.val ≤ 57) ∨ (97 ≤ n.val ∧ n.val ≤ 102)) → ((48 ≤ m.val ∧ m.val ≤ 57) ∨ (97 ≤ m.val ∧ m.val ≤ 102)) →
      hexDigitValue (UInt8.ofNat n.val) = hexDigitValue (UInt8.ofNat m.val) → n = m := by decide +kernel
  have := key ⟨c.toNat, c.toNat_lt⟩ ⟨d.toNat, d.toNat_lt⟩ hc hd (by simpa using h)
  exact UInt8.toNat_inj.1 (congrArg Fin.val this)

theorem hexValue_inj : ∀ {s t : Bytes} {v : Nat}, s.length = t.length → (∀ c ∈ s, IsLowerHex c) → (∀ c ∈ t, IsLowerHex c) →
    hexValue s = some v → hexValue t = some v → s = t
  | [], [], _, _, _, _, _, _ => rfl
  | [], _ :: _, _, h, _, _, _, _ => by simp at h
  | _ :: _, [], _, h, _, _, _, _ => by simp at h
  | c :: s, d :: t, v, hl, hs, ht, h, h' => by
    have hl' : s.length = t.length := by simpa using hl
    obtain ⟨x, r, hx, hr, rfl⟩ := hexValue_cons_some.1 h
    obtain ⟨y, q, hy, hq, e⟩ := hexValue_cons_some.1 h'
    have b1 := hexValue_lt hr
    have b2 := hexValue_lt hq
    rw [hl'] at b1 e
    have hpos : 0 < 16 ^ t.length := Nat.pow_pos (by decide)
    have exy : x = y := by
      have h1 : (x * 16 ^ t.length + r) / 16 ^ t.length = x := by
        rw [Nat.mul_comm, Nat.mul_add_div hpos, Nat.div_eq_of_lt b1, Nat.add_zero]
      have h2 : (y * 16 ^ t.length + q) / 16 ^ t.length = y := by
        rw [Nat.mul_comm, Nat.mul_add_div hpos, Nat.div_eq_of_lt b2, Nat.add_zero]
      rw [← h1, ← h2, e]
    subst exy
    have erq : r = q := by omega
    subst erq
    rw [lowerDigit_inj (hs c (List.mem_cons_self ..)) (ht d (List.mem_cons_self ..)) (hx.trans hy.symm),
      hexValue_inj hl' (fun c hc => hs c (List.mem_cons_of_mem _ hc)) (fun c hc => ht c (List.mem_cons_of_mem _ hc)) hr hq]

theorem idText_iff (s : Bytes) (id : ID) : IDText s id ↔ s = id.toText := by
  constructor
  · rintro ⟨h1, h2, h3⟩
    exact hexValue_inj (h1.trans (toText_length id).symm) h2 (toText_lower id) h3 (toText_value id)
  · rintro rfl
    exact ⟨toText_length id, toText_lower id, toText_value id⟩

theorem exportedID_iff (v : JVal) (id : SpanID) : ExportedID v id ↔ v = encodeSpanID id := by
  simp only [ExportedID, idText_iff, encodeSpanID, ID.marshalJSON, JVal.ofScalar]
  constructor
  · rintro ⟨t, s, p, rfl, rfl, rfl, rfl⟩
    rfl
  · rintro rfl
    exact ⟨_, _, _, rfl, rfl, rfl, rfl⟩

theorem exportedAnnotation_iff (v : JVal) (a : Annotation) : ExportedAnnotation v a ↔ v = encodeAnnotation a := by
  obtain ⟨k, x⟩ := a
  cases x with
  | none =>
    simp only [ExportedAnnotation, ExportedValue, cleaned_iff, encodeAnnotation]
    constructor
    · rintro ⟨k', x, rfl, rfl, rfl⟩
      rfl
    · rintro rfl
      exact ⟨_, _, rfl, rfl, rfl⟩
  | some b =>
    simp only [ExportedAnnotation, ExportedValue, cleaned_iff, written_iff, encodeAnnotation]
    constructor
    · rintro ⟨k', x, rfl, rfl, t, rfl, rfl⟩
      rfl
    · rintro rfl
      exact ⟨_, _, rfl, rfl, _, rfl, rfl⟩

theorem forall₂_eq_map {α β : Type} (f : β → α) (r : α → β → Prop) (h : ∀ x y, r x y ↔ x = f y) :
    ∀ (xs : List α) (ys : List β), List.Forall₂ r xs ys ↔ xs = ys.map f
  | [], [] => by simp
  | [], _ :: _ => by simp
  | _ :: _, [] => by simp
  | x :: xs, y :: ys => by simp [h, forall₂_eq_map f r h xs ys]

theorem exportedList_iff {α : Type} (n : Bool) (f : α → JVal) (r : JVal → α → Prop) (h : ∀ x y, r x y ↔ x = f y) (v : JVal) (l : List α) :
    ExportedList n r v l ↔ v = encodeSlice n (l.map f) := by
  simp only [ExportedList, forall₂_eq_map f r h]
  cases n <;> cases l <;> simp [encodeSlice]

theorem encodeSlice_null (n : Bool) (l : List JVal) : encodeSlice n l = .null ↔ n = true ∧ l = [] := by
  cases n <;> cases l <;> simp [encodeSlice]

theorem encodeSlice_arr {n : Bool} {l vs : List JVal} (h : encodeSlice n l = .arr vs) : vs = l := by
  cases n <;> cases l <;> simp_all [encodeSlice]

theorem encodeTraces_map (nils : SpanID → Bool × Bool) : ∀ ts : List Tree, encodeTraces nils ts = ts.map (encodeTrace nils)
  | [] => by simp [encodeTraces]
  | t :: ts => by simp [encodeTraces, encodeTraces_map nils ts]

mutual
theorem exported_encode (nils : SpanID → Bool × Bool) : ∀ tr : Tree, Exported nils (encodeTrace nils tr) tr
  | .node s ts => by
    unfold encodeTrace
    refine .node ((exportedID_iff _ _).2 rfl) ((exportedList_iff _ _ _ exportedAnnotation_iff _ _).2 rfl) ?_ ?_ ?_ ?_
    · rw [encodeSlice_null, encodeTraces_map]
      simp
    · intro vs h
      rw [encodeSlice_arr h, encodeTraces_map, List.length_map]
    · cases hb : (nils s.id).2 <;> cases hl : encodeTraces nils ts <;> simp [encodeSlice]
    · intro vs h
      rw [encodeSlice_arr h]
      exact exported_encodes nils ts
theorem exported_encodes (nils : SpanID → Bool × Bool) : ∀ ts : List Tree, ∀ (j : Nat) v t, (encodeTraces nils ts)[j]? = some v → ts[j]? = some t →
    Exported nils v t
  | [], j, v, t, h, h' => by simp at h'
  | t0 :: ts, j, v, t, h, h' => by
    unfold encodeTraces at h
    cases j with
    | zero =>
      simp only [List.getElem?_cons_zero, Option.some.injEq] at h h'
      subst h; subst h'
      exact exported_encode nils t0
    | succ j =>
      simp only [List.getElem?_cons_succ] at h h'
      exact exported_encodes nils ts j v t h h'
end

theorem exported_unique {nils : SpanID → Bool × Bool} {v : JVal} {tr : Tree} (h : Exported nils v tr) : v = encodeTrace nils tr := by
  induction h with
  | @node s ts i as sub hi ha hn hs hl _ ih =>
    rw [(exportedID_iff _ _).1 hi, (exportedList_iff _ _ _ exportedAnnotation_iff _ _).1 ha]
    have : sub = encodeSlice (nils s.id).2 (encodeTraces nils ts) := by
      rcases hl with rfl | ⟨vs, rfl⟩
      · have := hn.1 rfl
        obtain ⟨h1, rfl⟩ := this
        rw [h1]
        simp [encodeTraces, encodeSlice]
      · have hvs : vs = encodeTraces nils ts := by
          rw [encodeTraces_map]
          have hlen := hs vs rfl
          refine List.ext_getElem (by simpa using hlen) fun j h1 h2 => ?_
          have h3 : j < ts.length := hlen ▸ h1
          rw [List.getElem_map]
          exact ih vs rfl j _ _ (List.getElem?_eq_getElem h1) (List.getElem?_eq_getElem h3)
        subst hvs
        cases hb : (nils s.id).2 <;> cases hl : encodeTraces nils ts <;> simp only [encodeSlice]
        have : ts = [] := by
          rw [encodeTraces_map] at hl
          simpa using hl
        have := hn.2 ⟨hb, this⟩
        cases this
    rw [this]
    unfold encodeTrace
    rfl

end Appdash
