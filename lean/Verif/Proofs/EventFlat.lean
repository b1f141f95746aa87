import Verif.Proofs.EventLibrary

/-!
# Decoding an event of scalar fields among arbitrary annotations
-/

namespace Appdash

theorem dropUntil_exact {kv : List KV} (hs : SortedKV kv) {k v : Bytes} (h : (k, v) ∈ kv) :
    ∃ rest, dropUntil k kv = (k, v) :: rest ∧ rest <:+ kv ∧ ∀ e ∈ kv, k < e.1 → e ∈ rest := by
  have hm : (k, v) ∈ dropUntil k kv := mem_dropUntil h (isPrefixOf_append.2 ⟨[], by simp⟩)
  cases hd : dropUntil k kv with
  | nil => rw [hd] at hm; cases hm
  | cons e rest =>
    have hsuf : e :: rest <:+ kv := hd ▸ dropUntil_suffix k kv
    have hs' : SortedKV (e :: rest) := sorted_suffix hsuf hs
    have hp : k.isPrefixOf e.1 = true := dropUntil_head hd
    have he : e = (k, v) := by
      rw [hd] at hm
      rcases List.mem_cons.1 hm with h | h
      · exact h.symm
      · exact absurd ((List.pairwise_cons.1 hs').1 _ h) (not_lt_prefix hp)
    subst he
    have hr : rest <:+ kv := (List.suffix_cons _ _).trans hsuf
    refine ⟨rest, rfl, hr, fun e' he' hlt => ?_⟩
    have : e' ∈ (k, v) :: rest := mem_suffix_of_lt hs hsuf (List.mem_cons_self ..) he' hlt
    rcases List.mem_cons.1 this with rfl | h
    · exact absurd hlt (blt_irrefl _)
    · exact h

theorem flat_fields (ws : List GVal) (L : List (Bytes × Nat × Unflatten)) (hL : SortedKV L)
    (hpos : (L.map fun a => a.2.1).Nodup) (vs : List GVal) (kv : List KV) (hs : SortedKV kv)
    (h : ∀ a ∈ L, ∃ s x y, a.2.2 = unflattenScalar false s ∧ parseScalar s y = some x ∧ ws[a.2.1]? = some (.scalar x) ∧
      a.2.1 < vs.length ∧ (a.1, y) ∈ kv) :
    ∃ vs' kv', unflattenFields [] L vs kv = some (vs', kv', false) ∧ vs'.length = vs.length ∧
      (∀ a ∈ L, vs'[a.2.1]? = ws[a.2.1]?) ∧ ∀ i : Nat, (∀ a ∈ L, a.2.1 ≠ i) → vs'[i]? = vs[i]? := by
  induction L generalizing vs kv with
  | nil => exact ⟨vs, kv, rfl, rfl, by simp, fun _ _ => rfl⟩
  | cons a L ih =>
    obtain ⟨name, i, f⟩ := a
    obtain ⟨s, x, y, hf, hx, hw, hi, hkv⟩ := h _ (List.mem_cons_self ..)
    simp only at hf hw hi hkv
    subst hf
    obtain ⟨rest, hd, hsuf, hrest⟩ := dropUntil_exact hs hkv
    rw [List.map_cons, List.nodup_cons] at hpos
    have hlt := (List.pairwise_cons.1 hL).1
    have hne : ∀ b ∈ L, b.2.1 ≠ i := fun b hb e => hpos.1 (List.mem_map.2 ⟨b, hb, e⟩)
    obtain ⟨vs', kv', e1, e2, e3, e4⟩ := ih (List.pairwise_cons.1 hL).2 hpos.2 (vs.set i (.scalar x)) rest
      (sorted_suffix hsuf hs) (by
        intro b hb
        obtain ⟨s', x', y', q1, q2, q3, q4, q5⟩ := h b (List.mem_cons_of_mem _ hb)
        exact ⟨s', x', y', q1, q2, q3, by simpa using q4, hrest _ q5 (hlt b hb)⟩)
    refine ⟨vs', kv', ?_, by simpa using e2, ?_, ?_⟩
    · simp only [unflattenFields, List.getElem?_eq_getElem hi]
      have hn : nest [] name = name := rfl
      simp only [unflattenScalar, hn, hd, hx, Bool.false_eq_true, if_false]
      exact e1
    · intro b hb
      rcases List.mem_cons.1 hb with rfl | hb
      · simp only
        rw [e4 i hne, List.getElem?_set_self hi, hw]
      · exact e3 b hb
    · intro j hj
      rw [e4 j fun b hb => hj b (List.mem_cons_of_mem _ hb), List.getElem?_set_ne (hj _ (List.mem_cons_self ..))]

/-- Decoding a struct of scalars, given texts of the values of its fields. -/
theorem flat_unflatten_texts (ns : List Bytes) (ss : List ScalarTy) (xs : List Scalar) (ys : List Bytes) (hn : ns.Nodup)
    (hlen : ns.length = ss.length) (hl : ss.length = xs.length) (hly : ss.length = ys.length) (hne : ns ≠ [])
    (hp : ∀ (i : Nat) (s : ScalarTy) (x : Scalar) (y : Bytes), ss[i]? = some s → xs[i]? = some x → ys[i]? = some y →
      parseScalar s y = some x) (vs : List GVal)
    (hv : vs.length = xs.length) (kv : List KV) (hs : SortedKV kv)
    (hkv : ∀ (i : Nat) (n y : Bytes), ns[i]? = some n → ys[i]? = some y → (n, y) ∈ kv) :
    ∃ rest, unflatten (.struct ns (ss.map (GType.scalar false))) [] (.struct vs) kv =
      some (.struct (xs.map GVal.scalar), rest, false) := by
  have hmem : ∀ a ∈ sortKV (fieldFns ns (ss.map (GType.scalar false)) 0), ∃ s x y,
      a.2.2 = unflattenScalar false s ∧ parseScalar s y = some x ∧ (xs.map GVal.scalar)[a.2.1]? = some (.scalar x) ∧
      a.2.1 < vs.length ∧ (a.1, y) ∈ kv := by
    intro a ha
    obtain ⟨j, t, h1, h2, h3, h4⟩ := mem_fieldFns.1 (mem_sortKV.1 ha)
    rw [List.getElem?_map, Option.map_eq_some_iff] at h2
    obtain ⟨s, h2, rfl⟩ := h2
    have hj : j < xs.length := by
      have := (List.getElem?_eq_some_iff.1 h2).1; omega
    have hj' : j < ys.length := by omega
    have e : a.2.1 = j := by omega
    rw [e]
    refine ⟨s, xs[j], ys[j], h4.trans (by simp [unflatten]), ?_, ?_, by omega, ?_⟩
    · exact hp j s _ _ h2 (List.getElem?_eq_getElem hj) (List.getElem?_eq_getElem hj')
    · simp [hj]
    · exact hkv j a.1 ys[j] h1 (List.getElem?_eq_getElem hj')
  obtain ⟨vs', kv', e1, e2, e3, -⟩ := flat_fields (xs.map GVal.scalar) _
    (sorted_sortKV (by rw [fieldFns_names ns _ (by simpa using hlen)]; exact hn))
    (((perm_sortKV (fieldFns ns (ss.map (GType.scalar false)) 0)).map _).nodup_iff.2 (fieldFns_pos_nodup ns _ 0))
    vs kv hs hmem
  have heq : vs' = xs.map GVal.scalar := by
    apply List.ext_getElem?
    intro j
    by_cases hj : j < ns.length
    · have : (ns[j], j, unflatten (.scalar false (ss[j]'(by omega)))) ∈
          sortKV (fieldFns ns (ss.map (GType.scalar false)) 0) := by
        rw [mem_sortKV, mem_fieldFns]
        exact ⟨j, _, List.getElem?_eq_getElem hj, by simp [show j < ss.length by omega], by simp, rfl⟩
      exact e3 _ this
    · rw [List.getElem?_eq_none (by omega), List.getElem?_eq_none (by simp; omega)]
  subst heq
  have hkv' : ∃ e kv0, kv = e :: kv0 := by
    cases ns with
    | nil => exact absurd rfl hne
    | cons n ns =>
      cases ys with
      | nil => simp only [List.length_cons, List.length_nil] at hlen hly; omega
      | cons y ys =>
        have := hkv 0 n y rfl rfl
        cases kv with
        | nil => cases this
        | cons e kv0 => exact ⟨e, kv0, rfl⟩
  obtain ⟨e, kv0, rfl⟩ := hkv'
  refine ⟨kv', ?_⟩
  simp only [unflatten, dropUntil_nil_pre, GVal.fields, e1]

theorem find?_append_last (a b : List Annotation) (k : Bytes) (v : Bytes) (hn : ∃ x ∈ b, x.key = k)
    (hv : ∀ x ∈ b, x.key = k → x.valueString = v) : AMap.get (stringMap (a ++ b)) k = some v := by
  rw [stringMap_get, List.reverse_append, List.find?_append]
  cases hf : b.reverse.find? fun x => decide (x.key = k) with
  | none =>
    obtain ⟨x, hx, hk⟩ := hn
    have := List.find?_eq_none.1 hf x (List.mem_reverse.2 hx)
    simp [hk] at this
  | some x =>
    have h1 := List.find?_some hf
    have h2 := List.mem_of_find?_eq_some hf
    simp only [Option.some_or, Option.map_some, Option.some.injEq]
    exact hv x (List.mem_reverse.1 h2) (by simpa using h1)

/-- An event of scalar fields is read back as what the texts of its fields are parsed to. -/
theorem flat_event_reads (E : EventType) (hr : E.reflective) (ns : List Bytes) (ss : List ScalarTy)
    (ht : E.type = .struct ns (ss.map (GType.scalar false))) (hrec : E.type.isRecord = true) (hn : ns.Nodup)
    (hlen : ns.length = ss.length) (hne : ns ≠ []) (xs : List Scalar) (hl : ss.length = xs.length) (own : List Annotation)
    (hm : Marshals E (.struct (xs.map GVal.scalar)) (.ok own)) (before after : List Annotation)
    (hafter : ∀ a ∈ after, a.key ∉ ns) (zs : List Scalar) (hz : ss.length = zs.length)
    (hp : ∀ (i : Nat) (s : ScalarTy) (x z : Scalar), ss[i]? = some s → xs[i]? = some x → zs[i]? = some z →
      parseScalar s x.text = some z) (vs : List GVal) (hv : vs.length = ss.length) :
    unmarshalEvent E (before ++ own ++ after) (.struct vs) = some (.struct (zs.map GVal.scalar), none) := by
  obtain ⟨kvs, hperm, rfl⟩ := marshals_ok hr.1 hm
  have hs : (schemas (before ++ (kvs.map annotationOf ++ [schemaMarker E.schema]) ++ after)).contains E.schema = true := by
    rw [List.contains_iff_mem, mem_schemas]
    exact ⟨schemaMarker E.schema, by simp, rfl⟩
  rw [ht] at hrec
  have hflat : ∀ e : KV, e ∈ kvs ↔ ∃ (i : Nat) (n : Bytes) (x : Scalar), ns[i]? = some n ∧ xs[i]? = some x ∧
      e = (n, x.text) := by
    intro e
    rw [hperm.mem_iff, ht]
    simp only [flatten]
    rw [mem_flattenFields]
    constructor
    · rintro ⟨j, n, t, v, h1, h2, h3, h4⟩
      rw [List.getElem?_map, Option.map_eq_some_iff] at h2 h3
      obtain ⟨s, h2, rfl⟩ := h2
      obtain ⟨x, h3, rfl⟩ := h3
      exact ⟨j, n, x, h1, h3, by simpa [flatten, nest] using h4⟩
    · rintro ⟨j, n, x, h1, h2, rfl⟩
      have hj : j < ss.length := by
        have := (List.getElem?_eq_some_iff.1 h2).1
        omega
      exact ⟨j, n, .scalar false ss[j], .scalar x, h1, by simp [hj], by simp [h2], by simp [flatten, nest]⟩
  have hget : ∀ (i : Nat) (n : Bytes) (x : Scalar), ns[i]? = some n → xs[i]? = some x →
      AMap.get (stringMap (before ++ (kvs.map annotationOf ++ [schemaMarker E.schema]) ++ after)) n = some x.text := by
    intro i n x h1 h2
    have hnm : n ∈ ns := List.mem_of_getElem? h1
    rw [List.append_assoc]
    apply find?_append_last
    · exact ⟨annotationOf (n, x.text), by
        have := (hflat (n, x.text)).2 ⟨i, n, x, h1, h2, rfl⟩
        simp only [List.mem_append, List.mem_map]
        exact .inl (.inl ⟨_, this, rfl⟩), rfl⟩
    · intro a ha hk
      rcases List.mem_append.1 ha with ha | ha
      · rcases List.mem_append.1 ha with ha | ha
        · obtain ⟨e, he, rfl⟩ := List.mem_map.1 ha
          obtain ⟨j, m, y, q1, q2, rfl⟩ := (hflat e).1 he
          have hk' : m = n := hk
          subst hk'
          have : j = i := by
            have hj := (List.getElem?_eq_some_iff.1 q1).1
            have hi := (List.getElem?_eq_some_iff.1 h1).1
            exact (List.getElem_inj hn).1 (by
              rw [(List.getElem?_eq_some_iff.1 q1).2, (List.getElem?_eq_some_iff.1 h1).2])
          subst this
          rw [h2] at q2
          cases q2
          rfl
        · simp only [List.mem_singleton] at ha
          subst ha
          exfalso
          have hk' : schemaPrefix ++ E.schema = n := hk
          simp only [GType.isRecord, List.all_eq_true, Bool.and_eq_true] at hrec
          have := (hrec n hnm).2
          rw [← hk', isPrefixOf_append.2 ⟨_, rfl⟩] at this
          exact absurd this (by decide)
      · exact absurd (hk ▸ hnm) (hafter a ha)
  obtain ⟨rest, hu⟩ := flat_unflatten_texts ns ss zs (xs.map Scalar.text) hn hlen hz (by simpa using hl) hne (by
    intro i s z y h1 h2 h3
    rw [List.getElem?_map, Option.map_eq_some_iff] at h3
    obtain ⟨x, h3, rfl⟩ := h3
    exact hp i s x z h1 h3 h2) vs (by omega) _ (mapToKVs_sorted _) (by
    intro i n y h1 h2
    rw [List.getElem?_map, Option.map_eq_some_iff] at h2
    obtain ⟨x, h2, rfl⟩ := h2
    rw [mem_mapToKVs]
    exact hget i n x h1 h2)
  simp only [unmarshalEvent, hs, Bool.true_eq_false, if_false, hr.2, ht, hu]

end Appdash
