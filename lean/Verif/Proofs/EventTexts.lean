import Verif.Proofs.EventFlat
import Verif.Proofs.Numerals

/-! # Lemmas about reading the fields of an event from any texts -/

namespace Appdash

open Spec

theorem parseScalar_iff {s : ScalarTy} (hb : ∀ b, s = .int b → 0 < b) {t : Bytes} {x : Scalar} :
    parseScalar s t = some x ↔ ReadsAs s t x := by
  cases s with
  | bool =>
    rw [parseScalar, Option.map_eq_some_iff]
    constructor
    · rintro ⟨b, h, rfl⟩; exact (parseBool_iff t b).1 h
    · intro h
      cases x <;> try exact h.elim
      exact ⟨_, (parseBool_iff t _).2 h, rfl⟩
  | int bits =>
    have hb := hb bits rfl
    rw [parseScalar, Option.map_eq_some_iff]
    constructor
    · rintro ⟨i, h, rfl⟩
      obtain ⟨h1, h2, h3⟩ := parseIntDec_iff.1 h
      exact ⟨i, h1, h2, h3, (wrapInt_iff hb i _).1 rfl⟩
    · intro h
      cases x <;> try exact h.elim
      obtain ⟨i, h1, h2, h3, h4⟩ := h
      exact ⟨i, parseIntDec_iff.2 ⟨h1, h2, h3⟩, by rw [(wrapInt_iff hb i _).2 h4]⟩
  | uint bits =>
    rw [parseScalar, Option.map_eq_some_iff]
    constructor
    · rintro ⟨n, h, rfl⟩
      obtain ⟨h1, h2, h3⟩ := parseUintDec_iff.1 h
      exact ⟨_, n, List.length_pos_iff.2 h1, h2, h3, (wrapUint_iff bits n _).1 rfl⟩
    · intro h
      cases x <;> try exact h.elim
      obtain ⟨k, n, hk, h1, h2, h3⟩ := h
      refine ⟨n, parseUintDec_iff.2 ⟨?_, numeral_length h1, h2⟩, by rw [(wrapUint_iff bits n _).2 h3]⟩
      rintro rfl
      have := h1.length
      simp at this
      omega
  | string =>
    simp only [parseScalar, Option.some.injEq]
    constructor
    · rintro rfl; exact rfl
    · intro h
      cases x <;> try exact h.elim
      rw [show _ = t from h]
  | time =>
    rw [parseScalar, Option.map_eq_some_iff]
    constructor
    · rintro ⟨b, h, rfl⟩; exact (parseTime_iff t b).1 h
    · intro h
      cases x <;> try exact h.elim
      exact ⟨_, (parseTime_iff t _).2 h, rfl⟩
  | float bits =>
    rw [parseScalar, Option.map_eq_some_iff]
    constructor
    · rintro ⟨b, h, rfl⟩; exact (parseFloat_text32 t b).1 h
    · intro h
      cases x <;> try exact h.elim
      exact ⟨_, (parseFloat_text32 t _).2 h, rfl⟩
  | duration =>
    rw [parseScalar, Option.map_eq_some_iff]
    unfold parseDuration
    constructor
    · rintro ⟨d, h, rfl⟩
      obtain ⟨y, h1, rfl⟩ := Option.map_eq_some_iff.1 h
      exact ⟨y, (parseFloat_text64 t y).1 h1, (nanoseconds_iff y _).2 rfl⟩
    · intro h
      cases x <;> try exact h.elim
      obtain ⟨y, h1, h2⟩ := h
      exact ⟨_, Option.map_eq_some_iff.2 ⟨y, (parseFloat_text64 t y).2 h1, rfl⟩, by rw [(nanoseconds_iff y _).1 h2]⟩

/-- The loop over the fields of a flat struct, whatever the texts of its fields are. -/
theorem flat_fields_exact (L : List (Bytes × Nat × Unflatten)) (hL : SortedKV L)
    (hpos : (L.map fun a => a.2.1).Nodup) (vs : List GVal) (kv : List KV) (hs : SortedKV kv) (S : Nat → ScalarTy) (Y : Nat → Bytes)
    (h : ∀ a ∈ L, a.2.2 = unflattenScalar false (S a.2.1) ∧ a.2.1 < vs.length ∧ (a.1, Y a.2.1) ∈ kv) :
    ∃ vs' kv' err, unflattenFields [] L vs kv = some (vs', kv', err) ∧ vs'.length = vs.length ∧
      (∀ a ∈ L, (∀ b ∈ L, (b.1 < a.1 ∨ b = a) → parseScalar (S b.2.1) (Y b.2.1) ≠ none) →
        vs'[a.2.1]? = (parseScalar (S a.2.1) (Y a.2.1)).map GVal.scalar) ∧
      (∀ a ∈ L, (∃ b ∈ L, (b.1 < a.1 ∨ b = a) ∧ parseScalar (S b.2.1) (Y b.2.1) = none) → vs'[a.2.1]? = vs[a.2.1]?) ∧
      ∀ i : Nat, (∀ a ∈ L, a.2.1 ≠ i) → vs'[i]? = vs[i]? := by
  induction L generalizing vs kv with
  | nil => exact ⟨vs, kv, false, rfl, rfl, by simp, by simp, fun _ _ => rfl⟩
  | cons a L ih =>
    obtain ⟨name, i, f⟩ := a
    obtain ⟨hf, hi, hkv⟩ := h _ (List.mem_cons_self ..)
    simp only at hf hi hkv
    subst hf
    obtain ⟨rest, hd, hsuf, hrest⟩ := dropUntil_exact hs hkv
    rw [List.map_cons, List.nodup_cons] at hpos
    have hlt := (List.pairwise_cons.1 hL).1
    have hne : ∀ b ∈ L, b.2.1 ≠ i := fun b hb e => hpos.1 (List.mem_map.2 ⟨b, hb, e⟩)
    have hn : nest [] name = name := rfl
    cases hx : parseScalar (S i) (Y i) with
    | none =>
      have hset : vs.set i vs[i] = vs := List.set_getElem_self ..
      refine ⟨vs, (name, Y i) :: rest, true, ?_, rfl, ?_, fun _ _ _ => rfl, fun _ _ => rfl⟩
      · simp only [unflattenFields, List.getElem?_eq_getElem hi, unflattenScalar, hn, hd, hx, if_true, hset]
      · intro b hb hall
        exfalso
        refine hall (name, i, _) (List.mem_cons_self ..) ?_ hx
        rcases List.mem_cons.1 hb with rfl | hb
        · exact Or.inr rfl
        · exact Or.inl (hlt b hb)
    | some x =>
      obtain ⟨vs', kv', err, e1, e2, e3, e4, e5⟩ := ih (List.pairwise_cons.1 hL).2 hpos.2 (vs.set i (.scalar x)) rest
        (sorted_suffix hsuf hs) (by
          intro b hb
          obtain ⟨q1, q2, q3⟩ := h b (List.mem_cons_of_mem _ hb)
          exact ⟨q1, by simpa using q2, hrest _ q3 (hlt b hb)⟩)
      refine ⟨vs', kv', err, ?_, by simpa using e2, ?_, ?_, ?_⟩
      · simp only [unflattenFields, List.getElem?_eq_getElem hi]
        simp only [unflattenScalar, hn, hd, hx, Bool.false_eq_true, if_false]
        exact e1
      · intro b hb hall
        rcases List.mem_cons.1 hb with rfl | hb
        · simp only
          rw [e5 i hne, List.getElem?_set_self hi, hx]
          rfl
        · exact e3 b hb fun c hc => hall c (List.mem_cons_of_mem _ hc)
      · rintro b hb ⟨c, hc, hcb, hnone⟩
        have hc' : c ∈ L := by
          rcases List.mem_cons.1 hc with rfl | hc
          · simp only at hnone
            rw [hx] at hnone
            cases hnone
          · exact hc
        rcases List.mem_cons.1 hb with rfl | hb
        · exfalso
          rcases hcb with hcb | rfl
          · exact blt_irrefl _ (blt_trans hcb (hlt c hc'))
          · simp only at hnone
            rw [hx] at hnone
            cases hnone
        · rw [e4 b hb ⟨c, hc', hcb, hnone⟩, List.getElem?_set_ne (Ne.symm (hne b hb))]
      · intro j hj
        rw [e5 j fun b hb => hj b (List.mem_cons_of_mem _ hb), List.getElem?_set_ne (hj _ (List.mem_cons_self ..))]

theorem lastValue_get {as : List Annotation} {n y : Bytes} (h : LastValue as n y) : AMap.get (stringMap as) n = some y := by
  obtain ⟨before, a, after, rfl, hk, hv, hafter⟩ := h
  refine find?_append_last before (a :: after) n y ⟨a, List.mem_cons_self .., hk⟩ ?_
  intro x hx hxk
  rcases List.mem_cons.1 hx with rfl | hx
  · exact hv
  · exact absurd hxk (hafter x hx)

/-- Reading a flat event from annotations that have all its fields. -/
theorem flat_event_texts (E : EventType) (hr : E.reflective) (ns : List Bytes) (ss : List ScalarTy)
    (ht : E.type = .struct ns (ss.map (GType.scalar false))) (hn : ns.Nodup) (hlen : ns.length = ss.length) (hne : ns ≠ [])
    (as : List Annotation) (hs : ∃ a ∈ as, a.key = b!"_schema:" ++ E.schema) (ys : List Bytes) (hy : List.Forall₂ (LastValue as) ns ys)
    (vs : List GVal) (hv : vs.length = ns.length) :
    ∃ ws, unmarshalEvent E as (.struct vs) = some (.struct ws, none) ∧ ws.length = vs.length ∧
      ∀ (i : Nat) (n : Bytes) (s : ScalarTy) (y : Bytes), ns[i]? = some n → ss[i]? = some s → ys[i]? = some y →
        ((∀ (j : Nat) (m : Bytes) (t : ScalarTy) (z : Bytes), ns[j]? = some m → ss[j]? = some t → ys[j]? = some z → m < n ∨ m = n →
            parseScalar t z ≠ none) → ws[i]? = (parseScalar s y).map GVal.scalar) ∧
        (∀ (j : Nat) (m : Bytes) (t : ScalarTy) (z : Bytes), ns[j]? = some m → ss[j]? = some t → ys[j]? = some z → m < n ∨ m = n →
            parseScalar t z = none → ws[i]? = vs[i]?) := by
  have hly : ns.length = ys.length := hy.length_eq
  let S : Nat → ScalarTy := fun j => ss.getD j .bool
  let Y : Nat → Bytes := fun j => ys.getD j []
  have hS : ∀ (j : Nat) (t : ScalarTy), ss[j]? = some t → S j = t := by
    intro j t h; simp [S, List.getD_eq_getElem?_getD, h]
  have hY : ∀ (j : Nat) (z : Bytes), ys[j]? = some z → Y j = z := by
    intro j t h; simp [Y, List.getD_eq_getElem?_getD, h]
  have hlast : ∀ (j : Nat) (m z : Bytes), ns[j]? = some m → ys[j]? = some z → LastValue as m z := by
    intro j m z h1 h2
    have a1 := (List.getElem?_eq_some_iff.1 h1)
    have a2 := (List.getElem?_eq_some_iff.1 h2)
    have := hy.get a1.1 a2.1
    simp only [List.get_eq_getElem, a1.2, a2.2] at this
    exact this
  have hL : ∀ a ∈ sortKV (fieldFns ns (ss.map (GType.scalar false)) 0), ∃ t z, ns[a.2.1]? = some a.1 ∧ ss[a.2.1]? = some t ∧
      ys[a.2.1]? = some z ∧ a.2.2 = unflattenScalar false t := by
    intro a ha
    obtain ⟨j, t, h1, h2, h3, h4⟩ := mem_fieldFns.1 (mem_sortKV.1 ha)
    rw [List.getElem?_map, Option.map_eq_some_iff] at h2
    obtain ⟨s, h2, rfl⟩ := h2
    have e : a.2.1 = j := by omega
    have hj := (List.getElem?_eq_some_iff.1 h1).1
    rw [e]
    exact ⟨s, ys[j], h1, h2, List.getElem?_eq_getElem (by omega), h4.trans (by simp [unflatten])⟩
  have hmem : ∀ (j : Nat) (m : Bytes) (t : ScalarTy), ns[j]? = some m → ss[j]? = some t →
      (m, j, unflattenScalar false t) ∈ sortKV (fieldFns ns (ss.map (GType.scalar false)) 0) := by
    intro j m t h1 h2
    rw [mem_sortKV, mem_fieldFns]
    exact ⟨j, .scalar false t, h1, by simp [h2], by simp, by simp [unflatten]⟩
  obtain ⟨vs', kv', err, e1, e2, e3, e4, -⟩ := flat_fields_exact (sortKV (fieldFns ns (ss.map (GType.scalar false)) 0))
    (sorted_sortKV (by rw [fieldFns_names ns _ (by simpa using hlen)]; exact hn))
    (((perm_sortKV (fieldFns ns (ss.map (GType.scalar false)) 0)).map _).nodup_iff.2 (fieldFns_pos_nodup ns _ 0))
    vs (mapToKVs (stringMap as)) (mapToKVs_sorted _) S Y (by
      intro a ha
      obtain ⟨t, z, h1, h2, h3, h4⟩ := hL a ha
      have hj := (List.getElem?_eq_some_iff.1 h1).1
      refine ⟨by rw [hS _ _ h2]; exact h4, by omega, ?_⟩
      rw [mem_mapToKVs, hY _ _ h3]
      exact lastValue_get (hlast _ _ _ h1 h3))
  have hsch : (schemas as).contains E.schema = true := by
    rw [List.contains_iff_mem, mem_schemas]
    exact hs
  have hkv' : ∃ e kv0, mapToKVs (stringMap as) = e :: kv0 := by
    cases ns with
    | nil => exact absurd rfl hne
    | cons n ns =>
      cases ys with
      | nil => simp at hly
      | cons y ys =>
        have h1 : (n, y) ∈ mapToKVs (stringMap as) := by
          rw [mem_mapToKVs]
          exact lastValue_get (hlast 0 n y rfl rfl)
        cases hkv : mapToKVs (stringMap as) with
        | nil => rw [hkv] at h1; cases h1
        | cons e kv0 => exact ⟨e, kv0, rfl⟩
  obtain ⟨e, kv0, hkv'⟩ := hkv'
  refine ⟨vs', ?_, e2, ?_⟩
  · rw [hkv'] at e1
    simp only [unmarshalEvent, hsch, Bool.true_eq_false, if_false, hr.2, ht, hkv', unflatten, dropUntil_nil_pre, GVal.fields, e1]
  · intro i n s y h1 h2 h3
    have hi := hmem i n s h1 h2
    constructor
    · intro hall
      have := e3 _ hi (by
        rintro b hb hlt
        obtain ⟨t, z, q1, q2, q3, -⟩ := hL b hb
        rw [hS _ _ q2, hY _ _ q3]
        exact hall b.2.1 b.1 t z q1 q2 q3 (hlt.imp id fun h => by rw [h]))
      simpa only [hS _ _ h2, hY _ _ h3] using this
    · intro j m t z q1 q2 q3 hle hnone
      refine e4 _ hi ⟨_, hmem j m t q1 q2, ?_, by simp only [hS _ _ q2, hY _ _ q3]; exact hnone⟩
      rcases hle with hle | rfl
      · exact Or.inl hle
      · right
        have : j = i := (List.getElem_inj hn).1 (by
          rw [(List.getElem?_eq_some_iff.1 q1).2, (List.getElem?_eq_some_iff.1 h1).2])
        subst this
        rw [h2] at q2
        cases q2
        rfl

end Appdash
