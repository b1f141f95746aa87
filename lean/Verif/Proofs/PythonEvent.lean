import Verif.Spec.Python
import Verif.Proofs.EventFlat

/-!
# Lemmas about the events of the Python client
-/

namespace Appdash.Py

theorem schema_present {e : PyEvent} {own : List Ann} (hm : Marshals e own) (before after : List Annotation) :
    (schemas (before ++ own.map Ann.go ++ after)).contains e.schema = true := by
  obtain ⟨items, -, rfl⟩ := hm
  rw [List.contains_iff_mem, mem_schemas]
  refine ⟨Ann.go ⟨b!"_schema:" ++ e.schema, []⟩, ?_, rfl⟩
  simp

/-- A Python event of string fields, read as a Go event of scalar fields. -/
theorem flat_read (E : EventType) (hr : E.reflective) (ns : List Bytes) (ss : List ScalarTy)
    (ht : E.type = .struct ns (ss.map (GType.scalar false))) (hrec : E.type.isRecord = true) (hn : ns.Nodup)
    (hlen : ns.length = ss.length) (hne : ns ≠ []) (xs : List Scalar) (ys : List Bytes) (hlx : ss.length = xs.length)
    (hly : ss.length = ys.length)
    (hp : ∀ (i : Nat) (s : ScalarTy) (x : Scalar) (y : Bytes), ss[i]? = some s → xs[i]? = some x → ys[i]? = some y →
      parseScalar s y = some x)
    (e : PyEvent) (hs : e.schema = E.schema) (hf : e.fields = ns.zip ys) (own : List Ann) (hm : Marshals e own)
    (before after : List Annotation) (hafter : ∀ a ∈ after, a.key ∉ ns) (vs : List GVal) (hv : vs.length = xs.length) :
    unmarshalEvent E (before ++ own.map Ann.go ++ after) (.struct vs) = some (.struct (xs.map GVal.scalar), none) := by
  have hsch := schema_present hm before after
  rw [hs] at hsch
  obtain ⟨items, hperm, rfl⟩ := hm
  rw [hf] at hperm
  rw [ht] at hrec
  have hzip : ∀ kv : Bytes × Bytes, kv ∈ items ↔ ∃ i : Nat, ns[i]? = some kv.1 ∧ ys[i]? = some kv.2 := by
    intro kv
    rw [hperm.mem_iff, List.mem_iff_getElem?]
    constructor
    · rintro ⟨i, hi⟩
      rw [List.getElem?_zip_eq_some] at hi
      exact ⟨i, hi⟩
    · rintro ⟨i, hi⟩
      exact ⟨i, List.getElem?_zip_eq_some.2 hi⟩
  have hget : ∀ (i : Nat) (n y : Bytes), ns[i]? = some n → ys[i]? = some y →
      AMap.get (stringMap (before ++ (List.map (fun kv : Bytes × Bytes => Ann.mk kv.1 kv.2) items ++ [Ann.mk (b!"_schema:" ++ e.schema) []]).map Ann.go ++
        after)) n = some y := by
    intro i n y h1 h2
    have hnm : n ∈ ns := List.mem_of_getElem? h1
    rw [List.append_assoc]
    apply find?_append_last
    · refine ⟨Ann.go ⟨n, y⟩, ?_, rfl⟩
      simp only [List.mem_append, List.mem_map]
      exact .inl ⟨⟨n, y⟩, .inl ⟨(n, y), (hzip (n, y)).2 ⟨i, h1, h2⟩, rfl⟩, rfl⟩
    · intro a ha hk
      rcases List.mem_append.1 ha with ha | ha
      · obtain ⟨b, hb, rfl⟩ := List.mem_map.1 ha
        rcases List.mem_append.1 hb with hb | hb
        · obtain ⟨kv, hkv, rfl⟩ := List.mem_map.1 hb
          obtain ⟨j, q1, q2⟩ := (hzip kv).1 hkv
          have hk' : kv.1 = n := hk
          rw [hk'] at q1
          have : j = i := by
            have hj := (List.getElem?_eq_some_iff.1 q1).1
            have hi := (List.getElem?_eq_some_iff.1 h1).1
            exact (List.getElem_inj hn).1 (by
              rw [(List.getElem?_eq_some_iff.1 q1).2, (List.getElem?_eq_some_iff.1 h1).2])
          subst this
          rw [h2] at q2
          cases q2
          rfl
        · simp only [List.mem_singleton] at hb
          subst hb
          exfalso
          have hk' : schemaPrefix ++ e.schema = n := hk
          simp only [GType.isRecord, List.all_eq_true, Bool.and_eq_true] at hrec
          have := (hrec n hnm).2
          rw [← hk', isPrefixOf_append.2 ⟨_, rfl⟩] at this
          exact absurd this (by decide)
      · exact absurd (hk ▸ hnm) (hafter a ha)
  obtain ⟨rest, hu⟩ := flat_unflatten_texts ns ss xs ys hn hlen hlx hly hne hp vs hv _ (mapToKVs_sorted _) (by
    intro i n y h1 h2
    rw [mem_mapToKVs]
    exact hget i n y h1 h2)
  simp only [unmarshalEvent, hsch, Bool.true_eq_false, if_false, hr.2, ht, hu]

/-! ## Events none of whose fields are present -/

theorem dropUntil_absent {pre : Bytes} {kv : List KV} (h : ∀ e ∈ kv, pre.isPrefixOf e.1 = false) : dropUntil pre kv = [] := by
  induction kv with
  | nil => rfl
  | cons e kv ih =>
    simp only [dropUntil, h e (List.mem_cons_self ..), Bool.false_eq_true, if_false]
    exact ih fun e he => h e (List.mem_cons_of_mem _ he)

theorem unflattenFields_absent (L : List (Bytes × Nat × Unflatten)) (vs : List GVal) (kv : List KV)
    (hf : ∀ a ∈ L, (∃ d s, a.2.2 = unflatten (.scalar d s)) ∨ ∃ ns ts, a.2.2 = unflatten (.struct ns ts))
    (h : ∀ a ∈ L, ∀ e ∈ kv, a.1.isPrefixOf e.1 = false) :
    ∃ rest, unflattenFields [] L vs kv = some (vs, rest, false) := by
  induction L generalizing kv with
  | nil => exact ⟨kv, rfl⟩
  | cons a L ih =>
    obtain ⟨name, i, f⟩ := a
    have hd : dropUntil name kv = [] := dropUntil_absent (h _ (List.mem_cons_self ..))
    have hn : nest [] name = name := rfl
    simp only [unflattenFields]
    cases hi : vs[i]? with
    | none => exact ih _ (fun a ha => hf a (List.mem_cons_of_mem _ ha)) fun a ha => h a (List.mem_cons_of_mem _ ha)
    | some v =>
      have hset : vs.set i v = vs := by
        obtain ⟨hlt, rfl⟩ := List.getElem?_eq_some_iff.1 hi
        exact List.set_getElem_self hlt
      have hfv : f name v kv = some (v, [], false) := by
        rcases hf _ (List.mem_cons_self ..) with ⟨d, s, rfl⟩ | ⟨ns, ts, rfl⟩
        · simp [unflatten, unflattenScalar, hd]
        · simp [unflatten, hd]
      simp only [hn, hfv, Bool.false_eq_true, if_false, hset]
      exact ih _ (fun a ha => hf a (List.mem_cons_of_mem _ ha)) fun a ha e he => by cases he

theorem unmarshal_absent (E : EventType) (hr : E.reflective) (ns : List Bytes) (ts : List GType) (ht : E.type = .struct ns ts)
    (hts : ∀ t ∈ ts, (∃ d s, t = .scalar d s) ∨ ∃ ns' ts', t = .struct ns' ts') (as : List Annotation)
    (hs : (schemas as).contains E.schema = true) (hk : ∀ a ∈ as, ∀ n ∈ ns, n.isPrefixOf a.key = false) (vs : List GVal) :
    unmarshalEvent E as (.struct vs) = some (.struct vs, none) := by
  have hne : ∃ e kv, mapToKVs (stringMap as) = e :: kv := by
    rw [List.contains_iff_mem, mem_schemas] at hs
    obtain ⟨a, ha, -⟩ := hs
    cases hkv : mapToKVs (stringMap as) with
    | cons e kv => exact ⟨e, kv, rfl⟩
    | nil =>
      exfalso
      obtain ⟨v, hv⟩ : ∃ v, AMap.get (stringMap as) a.key = some v := by
        rw [stringMap_get]
        cases hf : as.reverse.find? fun b => decide (b.key = a.key) with
        | some b => exact ⟨_, rfl⟩
        | none =>
          have := List.find?_eq_none.1 hf a (List.mem_reverse.2 ha)
          simp at this
      have : (a.key, v) ∈ mapToKVs (stringMap as) := mem_mapToKVs.2 hv
      rw [hkv] at this
      cases this
  have hkey : ∀ e ∈ mapToKVs (stringMap as), ∃ a ∈ as, a.key = e.1 := by
    intro e he
    rw [mem_mapToKVs, stringMap_get] at he
    obtain ⟨a, h1, -⟩ := Option.map_eq_some_iff.1 he
    exact ⟨a, List.mem_reverse.1 (List.mem_of_find?_eq_some h1), by simpa using List.find?_some h1⟩
  obtain ⟨e, kv, hkv⟩ := hne
  obtain ⟨rest, hu⟩ := unflattenFields_absent (sortKV (fieldFns ns ts 0)) vs (e :: kv) (by
      intro a ha
      obtain ⟨j, t, h1, h2, h3, h4⟩ := mem_fieldFns.1 (mem_sortKV.1 ha)
      rcases hts t (List.mem_of_getElem? h2) with ⟨d, s, rfl⟩ | ⟨ns', ts', rfl⟩
      · exact .inl ⟨d, s, h4⟩
      · exact .inr ⟨ns', ts', h4⟩) (by
      intro a ha e' he'
      obtain ⟨j, t, h1, h2, h3, h4⟩ := mem_fieldFns.1 (mem_sortKV.1 ha)
      obtain ⟨b, hb, hbk⟩ := hkey e' (hkv ▸ he')
      rw [← hbk]
      exact hk b hb a.1 (List.mem_of_getElem? h1))
  simp only [unmarshalEvent, hs, Bool.true_eq_false, if_false, hr.2, ht, hkv, unflatten, dropUntil_nil_pre, GVal.fields, hu]

/-! ## HTTP events -/

theorem set_keys {m : Dict} {k v : Bytes} {e : Bytes × Bytes} (h : e ∈ AMap.set m k v) : e.1 = k ∨ e ∈ m := by
  induction m with
  | nil => simp only [AMap.set, List.mem_singleton] at h; exact .inl (by rw [h])
  | cons p m ih =>
    simp only [AMap.set] at h
    split at h
    · rcases List.mem_cons.1 h with rfl | h
      · exact .inl rfl
      · exact .inr (List.mem_cons_of_mem _ h)
    · rcases List.mem_cons.1 h with rfl | h
      · exact .inr (List.mem_cons_self ..)
      · rcases ih h with h | h
        · exact .inl h
        · exact .inr (List.mem_cons_of_mem _ h)

theorem flattenReqRes_keys (info into : Dict) {e : Bytes × Bytes} (h : e ∈ flattenReqRes info into) :
    (b!"Request.").isPrefixOf e.1 = true ∨ e ∈ into := by
  unfold flattenReqRes at h
  induction info generalizing into with
  | nil => exact .inr h
  | cons kv info ih =>
    rw [List.foldl_cons] at h
    rcases ih _ h with h | h
    · exact .inl h
    · split at h
      · rcases set_keys h with h | h
        · left; rw [h, isPrefixOf_append]; exact ⟨b!"Headers." ++ kv.1, by simp⟩
        · exact .inr h
      · rcases set_keys h with h | h
        · left; rw [h, isPrefixOf_append]; exact ⟨kv.1, rfl⟩
        · exact .inr h

/-- No two different strings are both prefixes of one string at their first byte. -/
theorem isPrefixOf_head {a b : UInt8} {p q s : Bytes} (hab : a ≠ b) (h : (a :: p).isPrefixOf s = true) :
    (b :: q).isPrefixOf s = false := by
  obtain ⟨r, rfl⟩ := isPrefixOf_append.1 h
  simp only [List.cons_append, List.isPrefixOf_cons₂, Bool.and_eq_false_iff, beq_eq_false_iff_ne]
  exact .inl (Ne.symm hab)

theorem marshals_keys {e : PyEvent} {as : List Ann} (hm : Marshals e as) {a : Ann} (ha : a ∈ as) :
    (a.key, a.value) ∈ e.fields ∨ a.key = b!"_schema:" ++ e.schema := by
  obtain ⟨items, hperm, rfl⟩ := hm
  rcases List.mem_append.1 ha with h | h
  · obtain ⟨kv, hkv, rfl⟩ := List.mem_map.1 h
    exact .inl (hperm.mem_iff.1 hkv)
  · rw [List.mem_singleton] at h
    subst h
    exact .inr rfl


/-- Setting one key leaves the items of the others. -/
theorem set_keeps {m : Dict} {k v : Bytes} {e : Bytes × Bytes} (h : e ∈ m) (hk : e.1 ≠ k) : e ∈ AMap.set m k v := by
  induction m with
  | nil => exact absurd h List.not_mem_nil
  | cons p m ih =>
    simp only [AMap.set]
    rcases List.mem_cons.1 h with rfl | h
    · rw [if_neg hk]; exact List.mem_cons_self
    · split
      · exact List.mem_cons_of_mem _ h
      · exact List.mem_cons_of_mem _ (ih h)

/-- Request and response info leave the other fields of an event as they are. -/
theorem flattenReqRes_others (info into : Dict) {e : Bytes × Bytes} (hk : (b!"Request.").isPrefixOf e.1 = false) :
    e ∈ flattenReqRes info into ↔ e ∈ into := by
  constructor
  · intro h
    rcases flattenReqRes_keys _ _ h with h | h
    · rw [hk] at h; exact absurd h (by decide)
    · exact h
  · intro h
    unfold flattenReqRes
    induction info generalizing into with
    | nil => exact h
    | cons kv info ih =>
      rw [List.foldl_cons]
      refine ih _ ?_
      have hne : ∀ q : Bytes, e.1 ≠ b!"Request." ++ q := by
        intro q hq
        rw [hq] at hk
        exact Bool.noConfusion (hk.symm.trans (isPrefixOf_append.2 ⟨q, rfl⟩))
      split
      · exact set_keeps h (hne (b!"Headers." ++ kv.1))
      · exact set_keeps h (hne kv.1)

/-- The item with a key in the dictionary given. -/
theorem flattenReqRes_get (info into : Dict) (hd : (info.map Prod.fst).Nodup) {k v : Bytes} (hk : k ≠ b!"Headers")
    (hk' : k ≠ b!"Headers.Headers") (hv : (k, v) ∈ info) :
    AMap.get (flattenReqRes info into) (b!"Request." ++ k) = some v := by
  have hne : ∀ q : Bytes, q ≠ k → b!"Request." ++ q ≠ b!"Request." ++ k := by
    intro q hq h
    exact hq (List.append_cancel_left h)
  have hne' : b!"Request.Headers." ++ b!"Headers" ≠ b!"Request." ++ k := by
    intro h
    exact hk' (List.append_cancel_left (as := b!"Request.") (bs := b!"Headers.Headers") h).symm
  have keep : ∀ (info into : Dict), k ∉ info.map Prod.fst →
      AMap.get (flattenReqRes info into) (b!"Request." ++ k) = AMap.get into (b!"Request." ++ k) := by
    intro info
    induction info with
    | nil => intro into _; rfl
    | cons kv info ih =>
      intro into hn
      simp only [List.map_cons, List.mem_cons, not_or] at hn
      refine (ih _ hn.2).trans ?_
      beta_reduce
      by_cases h : kv.1 = b!"Headers"
      · rw [if_pos h, AMap.get_set, if_neg]
        rw [h]
        exact fun e => hne' e
      · rw [if_neg h, AMap.get_set, if_neg]
        exact fun e => hne kv.1 (Ne.symm hn.1) e
  unfold flattenReqRes at keep ⊢
  induction info generalizing into with
  | nil => cases hv
  | cons kv info ih =>
    rw [List.foldl_cons]
    simp only [List.map_cons, List.nodup_cons] at hd
    rcases List.mem_cons.1 hv with rfl | hv
    · rw [keep _ _ hd.1, if_neg hk, AMap.get_set, if_pos rfl]
    · exact ih _ hd.2 hv

/-- The tags of a span when they are all strings. -/
theorem recordTags_ok (id : SpanID) {l : List (Bytes × Value)} (h : ∀ kv ∈ l, ∃ s, kv.2 = .str s) :
    (recordTags id l).2 = false ∧ (∀ p ∈ (recordTags id l).1, p.1 = id) ∧
    (∀ k s, (k, Value.str s) ∈ l → (⟨k, some s⟩ : Annotation) ∈ (recordTags id l).1.flatMap fun p => (goCall p).2) ∧
    ∀ a ∈ (recordTags id l).1.flatMap fun p => (goCall p).2, ∃ k s, (k, Value.str s) ∈ l ∧ a = ⟨k, some s⟩ := by
  induction l with
  | nil => simp [recordTags]
  | cons kv l ih =>
    obtain ⟨k, v⟩ := kv
    obtain ⟨s, rfl⟩ : ∃ s, v = .str s := h (k, v) (List.mem_cons_self ..)
    obtain ⟨h1, h2, h3, h4⟩ := ih fun kv hkv => h kv (List.mem_cons_of_mem _ hkv)
    simp only [recordTags]
    refine ⟨h1, ?_, ?_, ?_⟩
    · intro p hp
      rcases List.mem_cons.1 hp with rfl | hp
      · rfl
      · exact h2 p hp
    · intro k' s' hm
      rw [List.flatMap_cons, List.mem_append]
      rcases List.mem_cons.1 hm with hm | hm
      · cases hm; exact .inl (by simp [goCall, Ann.go])
      · exact .inr (h3 k' s' hm)
    · intro a ha
      rw [List.flatMap_cons, List.mem_append] at ha
      rcases ha with ha | ha
      · simp only [goCall, Ann.go, List.map_cons, List.map_nil, List.mem_singleton] at ha
        exact ⟨k, s, List.mem_cons_self .., ha⟩
      · obtain ⟨k', s', hm, rfl⟩ := h4 a ha
        exact ⟨k', s', List.mem_cons_of_mem _ hm, rfl⟩

end Appdash.Py
