import Verif.Proofs.ReflectStruct

/-! # Round trips of events -/

namespace Appdash

mutual

theorem good_type : ∀ (t : GType) (P : Bytes) (v : GVal), P ≠ [] → t.plain = true → t.holds v = true → v.full = true →
    (v.isStruct = true → v.hasLeaf = true) → Unflattens t P v
  | .scalar d s, P, v, hP, hp, hh, hf, hl => by
    cases v with
    | scalar x =>
      simp only [GType.plain, Bool.not_eq_true'] at hp
      subst hp
      simp only [GType.holds] at hh
      refine ⟨?_, ?_, ?_, ?_⟩
      · simp only [unflatten, flatten, leaves]; exact decodes_scalar s x hh P _
      · intro e he; simp only [flatten, List.mem_singleton] at he; subst he; exact clash_refl P
      · intro p hp; simp only [leaves, List.mem_singleton] at hp; subst hp; exact clash_refl p
      · intro _; simp [flatten]
    | _ => simp [GType.holds] at hh
  | .map e, P, v, hP, hp, hh, hf, hl => by
    cases v with
    | map m =>
      simp only [GType.holds, Bool.and_eq_true, decide_eq_true_eq, List.all_eq_true] at hh
      refine ⟨?_, ?_, ?_, ?_⟩
      · simp only [unflatten, flatten, leaves, GType.zero]; exact decodes_map e m hh.1 hh.2 P hP
      · intro x hx
        simp only [flatten] at hx
        obtain ⟨f, _, rfl⟩ := List.mem_map.1 hx
        exact clash_nest hP _
      · intro p hp; simp only [leaves, List.mem_singleton] at hp; subst hp; exact clash_refl p
      · intro hl; simp only [flatten, flattenMap]; cases m <;> simp [GVal.hasLeaf] at hl ⊢
    | _ => simp [GType.holds] at hh
  | .slice e, P, v, hP, hp, hh, hf, hl => by
    cases v with
    | seq xs =>
      simp only [GType.holds, Bool.and_eq_true, decide_eq_true_eq, List.all_eq_true] at hh
      have hne : xs ≠ [] := by intro h; subst h; simp [GVal.full] at hf
      refine ⟨?_, ?_, ?_, ?_⟩
      · simp only [unflatten, flatten, leaves]
        exact decodes_seq true e xs hne hh.1 hh.2 P hP _ (by simp)
      · intro x hx
        simp only [flatten] at hx
        obtain ⟨j, x, _, rfl⟩ := mem_flattenSeq.1 hx
        exact clash_nest hP _
      · intro p hp; simp only [leaves, List.mem_singleton] at hp; subst hp; exact clash_refl p
      · intro _; cases xs with
        | nil => exact absurd rfl hne
        | cons a l => simp [flatten, flattenSeq]
    | _ => simp [GType.holds] at hh
  | .array n e, P, v, hP, hp, hh, hf, hl => by
    cases v with
    | seq xs =>
      simp only [GType.holds, Bool.and_eq_true, decide_eq_true_eq, List.all_eq_true] at hh
      have hne : xs ≠ [] := by intro h; subst h; simp [GVal.full] at hf
      refine ⟨?_, ?_, ?_, ?_⟩
      · simp only [unflatten, flatten, leaves]
        exact decodes_seq false e xs hne hh.1.1 hh.2 P hP _ (by simp [GType.zero, GVal.elems, hh.1.2])
      · intro x hx
        simp only [flatten] at hx
        obtain ⟨j, x, _, rfl⟩ := mem_flattenSeq.1 hx
        exact clash_nest hP _
      · intro p hp; simp only [leaves, List.mem_singleton] at hp; subst hp; exact clash_refl p
      · intro _; cases xs with
        | nil => exact absurd rfl hne
        | cons a l => simp [flatten, flattenSeq]
    | _ => simp [GType.holds] at hh
  | .struct ns ts, P, v, hP, hp, hh, hf, hl => by
    cases v with
    | struct vs =>
      simp only [GType.plain, Bool.and_eq_true, decide_eq_true_eq] at hp
      simp only [GType.holds] at hh
      simp only [GVal.full] at hf
      obtain ⟨hlen, hhold⟩ := holdsAll_spec hh
      have hpl := plainAll_spec hp.2
      have hfl := fullAll_spec hf
      have hne := (namesApart_spec hp.1.2).1
      have hall := good_types ts
      have hg : ∀ (j : Nat) (n : Bytes) (t : GType) (v : GVal), ns[j]? = some n → ts[j]? = some t → vs[j]? = some v →
          Unflattens t (nest P n) v := by
        intro j n t v h1 h2 h3
        have hv := hfl v (List.mem_of_getElem? h3)
        exact hall t (List.mem_of_getElem? h2) _ v (nest_ne_nil P (hne n (List.mem_of_getElem? h1)))
          (hpl t (List.mem_of_getElem? h2)) (hhold j t v h2 h3) hv.1 hv.2
      have hkeys : ∀ e ∈ flattenFields ns ts P vs, clash P e.1 = true := by
        intro e he
        obtain ⟨j, n, t, v, h1, h2, h3, h4⟩ := mem_flattenFields.1 he
        exact clash_trans (clash_nest hP n) ((hg j n t v h1 h2 h3).keys e h4)
      have hleaf : anyLeaf vs = true → ∃ e, e ∈ flattenFields ns ts P vs := by
        intro h
        obtain ⟨j, v, h3, hv⟩ := anyLeaf_spec h
        have hj := (List.getElem?_eq_some_iff.1 h3).1
        obtain ⟨n, h1⟩ : ∃ n, ns[j]? = some n := ⟨_, List.getElem?_eq_getElem (by omega)⟩
        obtain ⟨t, h2⟩ : ∃ t, ts[j]? = some t := ⟨_, List.getElem?_eq_getElem (by omega)⟩
        obtain ⟨e, he⟩ := List.exists_mem_of_ne_nil _ ((hg j n t v h1 h2 h3).leaf hv)
        exact ⟨e, mem_flattenFields.2 ⟨j, n, t, v, h1, h2, h3, he⟩⟩
      refine ⟨?_, ?_, ?_, ?_⟩
      · simp only [flatten, leaves]
        exact decodes_struct ns ts vs P hp.1.1 hp.1.2 hlen hg (.inr (hleaf (by simpa [GVal.hasLeaf, GVal.isStruct] using hl)))
          fun e he => clash_prefix (hkeys e he)
      · simpa only [flatten] using hkeys
      · intro p hp'
        simp only [leaves] at hp'
        obtain ⟨j, n, t, h1, h2, h3⟩ := mem_leavesAll.1 hp'
        have hj := (List.getElem?_eq_some_iff.1 h2).1
        obtain ⟨v, hv⟩ : ∃ v, vs[j]? = some v := ⟨_, List.getElem?_eq_getElem (by omega)⟩
        exact clash_trans (clash_nest hP n) ((hg j n t v h1 h2 hv).paths p h3)
      · intro h
        simp only [GVal.hasLeaf] at h
        obtain ⟨e, he⟩ := hleaf h
        simp only [flatten]
        exact List.ne_nil_of_mem he
    | _ => simp [GType.holds] at hh

theorem good_types : ∀ (ts : List GType), ∀ t ∈ ts, ∀ (P : Bytes) (v : GVal), P ≠ [] → t.plain = true → t.holds v = true →
    v.full = true → (v.isStruct = true → v.hasLeaf = true) → Unflattens t P v
  | [], t, h, _, _, _, _, _, _, _ => absurd h (List.not_mem_nil)
  | u :: us, t, h, P, v, hP, hp, hh, hf, hl => by
    rcases List.mem_cons.1 h with h | h
    · rw [h] at hp hh ⊢; exact good_type u P v hP hp hh hf hl
    · exact good_types us t h P v hP hp hh hf hl

end

/-! ## Whole events -/

/-- The keys of an event's annotations clash with the names of its fields. -/
theorem event_keys {t : GType} {v : GVal} (hr : t.isRecord = true) (hp : t.plain = true) (hh : t.holds v = true)
    (hf : v.full = true) {e : KV} (he : e ∈ flatten t [] v) : ∃ n ∈ t.names, clash n e.1 = true := by
  cases t with
  | struct ns ts =>
    cases v with
    | struct vs =>
      simp only [GType.plain, Bool.and_eq_true, decide_eq_true_eq] at hp
      simp only [GType.holds] at hh
      simp only [GVal.full] at hf
      simp only [flatten] at he
      obtain ⟨j, n, t, v, h1, h2, h3, h4⟩ := mem_flattenFields.1 he
      have hne := (namesApart_spec hp.1.2).1 n (List.mem_of_getElem? h1)
      have hv := fullAll_spec hf v (List.mem_of_getElem? h3)
      have g := good_type t (nest [] n) v (nest_ne_nil [] hne) (plainAll_spec hp.2 t (List.mem_of_getElem? h2))
        ((holdsAll_spec hh).2 j t v h2 h3) hv.1 hv.2
      exact ⟨n, List.mem_of_getElem? h1, g.keys e h4⟩
    | _ => simp [GType.holds] at hh
  | _ => simp [GType.isRecord] at hr

theorem event_paths {t : GType} {v : GVal} (hr : t.isRecord = true) (hp : t.plain = true) (hh : t.holds v = true)
    (hf : v.full = true) {p : Bytes} (he : p ∈ leaves t []) : ∃ n ∈ t.names, clash n p = true := by
  cases t with
  | struct ns ts =>
    cases v with
    | struct vs =>
      simp only [GType.plain, Bool.and_eq_true, decide_eq_true_eq] at hp
      simp only [GType.holds] at hh
      simp only [GVal.full] at hf
      simp only [leaves] at he
      obtain ⟨j, n, t, h1, h2, h4⟩ := mem_leavesAll.1 he
      have hj := (List.getElem?_eq_some_iff.1 h2).1
      obtain ⟨v, h3⟩ : ∃ v, vs[j]? = some v :=
        ⟨_, List.getElem?_eq_getElem (by have := (holdsAll_spec hh).1; omega)⟩
      have hne := (namesApart_spec hp.1.2).1 n (List.mem_of_getElem? h1)
      have hv := fullAll_spec hf v (List.mem_of_getElem? h3)
      have g := good_type t (nest [] n) v (nest_ne_nil [] hne) (plainAll_spec hp.2 t (List.mem_of_getElem? h2))
        ((holdsAll_spec hh).2 j t v h2 h3) hv.1 hv.2
      exact ⟨n, List.mem_of_getElem? h1, g.paths p h4⟩
    | _ => simp [GType.holds] at hh
  | _ => simp [GType.isRecord] at hr

/-- Decoding an event from sorted pairs that contain its own and no others that clash with its fields' names. -/
theorem event_decodes {t : GType} {v : GVal} (hr : t.isRecord = true) (hp : t.plain = true) (hh : t.holds v = true)
    (hf : v.full = true) (kv : List KV) (hs : SortedKV kv) (hin : ∀ e ∈ flatten t [] v, e ∈ kv)
    (hfor : ∀ e ∈ kv, e ∈ flatten t [] v ∨ ∀ n ∈ t.names, clash n e.1 = false) :
    ∃ v' kv', unflatten t [] t.zero kv = some (v', kv', false) ∧ v.Same v' := by
  have hkp : ∀ e ∈ kv, e ∈ flatten t [] v ∨ ∀ p ∈ leaves t [], clash p e.1 = false := by
    intro e he
    rcases hfor e he with h | h
    · exact .inl h
    · right
      intro p hpl
      obtain ⟨n, hn, hc⟩ := event_paths hr hp hh hf hpl
      cases hpe : clash p e.1 with
      | false => rfl
      | true => rw [← clash_trans hc hpe]; exact h n hn
  cases t with
  | struct ns ts =>
    cases v with
    | struct vs =>
      simp only [GType.plain, Bool.and_eq_true, decide_eq_true_eq] at hp
      simp only [GType.holds] at hh
      simp only [GVal.full] at hf
      obtain ⟨hlen, hhold⟩ := holdsAll_spec hh
      have hne := (namesApart_spec hp.1.2).1
      have hg : ∀ (j : Nat) (n : Bytes) (t : GType) (v : GVal), ns[j]? = some n → ts[j]? = some t → vs[j]? = some v →
          Unflattens t (nest [] n) v := by
        intro j n t v h1 h2 h3
        have hv := fullAll_spec hf v (List.mem_of_getElem? h3)
        exact good_type t _ v (nest_ne_nil [] (hne n (List.mem_of_getElem? h1)))
          (plainAll_spec hp.2 t (List.mem_of_getElem? h2)) (hhold j t v h2 h3) hv.1 hv.2
      obtain ⟨v', kv', h1, h2, _⟩ := decodes_struct ns ts vs [] hp.1.1 hp.1.2 hlen hg (.inl rfl) (fun _ _ => rfl) kv hs hin hkp
      exact ⟨v', kv', h1, h2⟩
    | _ => simp [GType.holds] at hh
  | _ => simp [GType.isRecord] at hr

/-- The annotations of an event have distinct keys. -/
theorem flattenSeq_nodup (P : Bytes) (hP : P ≠ []) (xs : List Scalar) (i : Nat) (h : i + xs.length ≤ 2 ^ 63) :
    ((flattenSeq P i xs).map Prod.fst).Nodup := by
  induction xs generalizing i with
  | nil => simp [flattenSeq]
  | cons x xs ih =>
    simp only [List.length_cons] at h
    simp only [flattenSeq, List.map_cons, List.nodup_cons]
    refine ⟨?_, ih (i + 1) (by omega)⟩
    intro hm
    obtain ⟨e, he, heq⟩ := List.mem_map.1 hm
    obtain ⟨j, y, hy, rfl⟩ := mem_flattenSeq.1 he
    have hj := (List.getElem?_eq_some_iff.1 hy).1
    simp only [nest, hP, if_false, List.append_cancel_left_eq, List.cons.injEq, true_and] at heq
    have := formatInt_inj (by omega) (by omega) heq
    omega

mutual

theorem flatten_nodup : ∀ (t : GType) (P : Bytes) (v : GVal), P ≠ [] → t.plain = true → t.holds v = true → v.full = true →
    ((flatten t P v).map Prod.fst).Nodup
  | .scalar d s, P, v, _, _, hh, _ => by
    cases v <;> simp [GType.holds] at hh <;> simp [flatten]
  | .map e, P, v, hP, _, hh, _ => by
    cases v with
    | map m =>
      simp only [GType.holds, Bool.and_eq_true, decide_eq_true_eq] at hh
      simp only [flatten, flattenMap, List.map_map]
      have h1 := hh.1
      rw [AMap.keys, List.nodup_iff_pairwise_ne, List.pairwise_map] at h1
      rw [List.nodup_iff_pairwise_ne, List.pairwise_map]
      refine h1.imp ?_
      intro a b hab he
      simp only [Function.comp_apply, nest, hP, if_false, List.append_cancel_left_eq, List.cons.injEq, true_and] at he
      exact hab he
    | _ => simp [GType.holds] at hh
  | .slice e, P, v, hP, _, hh, _ => by
    cases v with
    | seq xs =>
      simp only [GType.holds, Bool.and_eq_true, decide_eq_true_eq] at hh
      simp only [flatten]
      exact flattenSeq_nodup P hP xs 0 (by omega)
    | _ => simp [GType.holds] at hh
  | .array n e, P, v, hP, _, hh, _ => by
    cases v with
    | seq xs =>
      simp only [GType.holds, Bool.and_eq_true, decide_eq_true_eq] at hh
      simp only [flatten]
      exact flattenSeq_nodup P hP xs 0 (by omega)
    | _ => simp [GType.holds] at hh
  | .struct ns ts, P, v, hP, hp, hh, hf => by
    cases v with
    | struct vs =>
      simp only [GType.plain, Bool.and_eq_true, decide_eq_true_eq] at hp
      simp only [GType.holds] at hh
      simp only [GVal.full] at hf
      simp only [flatten]
      exact flattenFields_nodup ns ts P vs hp.1.2 hp.2 hh hf
    | _ => simp [GType.holds] at hh

theorem flattenFields_nodup : ∀ (ns : List Bytes) (ts : List GType) (P : Bytes) (vs : List GVal), namesApart ns = true →
    plainAll ts = true → holdsAll ts vs = true → fullAll vs = true → ((flattenFields ns ts P vs).map Prod.fst).Nodup
  | [], ts, P, vs, _, _, _, _ => by cases ts <;> simp [flattenFields]
  | n :: ns, [], P, vs, _, _, _, _ => by simp [flattenFields]
  | n :: ns, t :: ts, P, vs, hn, hp, hh, hf => by
    cases vs with
    | nil => simp [holdsAll] at hh
    | cons v vs =>
      have hn' := namesApart_spec hn
      have hfs := fullAll_spec hf
      simp only [plainAll, holdsAll, fullAll, Bool.and_eq_true] at hp hh hf
      have hnn : n ≠ [] := hn'.1 n (List.mem_cons_self ..)
      have hn2 : namesApart ns = true := by
        simp only [namesApart, Bool.and_eq_true] at hn; exact hn.2
      simp only [flattenFields, List.map_append]
      rw [List.nodup_append]
      refine ⟨flatten_nodup t _ v (nest_ne_nil P hnn) hp.1 hh.1 hf.1.1, flattenFields_nodup ns ts P vs hn2 hp.2 hh.2 hf.2, ?_⟩
      intro a ha b hb hab
      subst hab
      obtain ⟨e, he, rfl⟩ := List.mem_map.1 ha
      obtain ⟨e', he', heq⟩ := List.mem_map.1 hb
      obtain ⟨j, n', t', v', h1, h2, h3, h4⟩ := mem_flattenFields.1 he'
      have g1 := good_type t _ v (nest_ne_nil P hnn) hp.1 hh.1 hf.1.1 (hfs v (List.mem_cons_self ..)).2
      have hnn' : n' ≠ [] := hn'.1 n' (List.mem_cons_of_mem _ (List.mem_of_getElem? h1))
      have hv' := fullAll_spec hf.2 v' (List.mem_of_getElem? h3)
      have g2 := good_type t' _ v' (nest_ne_nil P hnn') (plainAll_spec hp.2 t' (List.mem_of_getElem? h2))
        ((holdsAll_spec hh.2).2 j t' v' h2 h3) hv'.1 hv'.2
      have c1 := g1.keys e he
      have c2 := g2.keys e' h4
      rw [heq] at c2
      refine clash_disjoint ?_ ?_ c1 c2
      · rw [nest_clash_nest]; exact hn'.2 0 (j + 1) n n' rfl (by simpa using h1) (by omega)
      · rw [nest_clash_nest]; exact hn'.2 (j + 1) 0 n' n (by simpa using h1) rfl (by omega)

end

theorem event_nodup {t : GType} {v : GVal} (hr : t.isRecord = true) (hp : t.plain = true) (hh : t.holds v = true)
    (hf : v.full = true) : ((flatten t [] v).map Prod.fst).Nodup := by
  cases t with
  | struct ns ts =>
    cases v with
    | struct vs =>
      simp only [GType.plain, Bool.and_eq_true, decide_eq_true_eq] at hp
      simp only [GType.holds] at hh
      simp only [GVal.full] at hf
      simp only [flatten]
      exact flattenFields_nodup ns ts [] vs hp.1.2 hp.2 hh hf
    | _ => simp [GType.holds] at hh
  | _ => simp [GType.isRecord] at hr

/-! ## `StringMap` -/

theorem stringMap_keys_nodup (as : List Annotation) : (stringMap as).keys.Nodup := by
  unfold stringMap
  have : ∀ (as : List Annotation) (m : AMap Bytes Bytes), m.keys.Nodup →
      (as.foldl (fun m a => AMap.set m a.key a.valueString) m).keys.Nodup := by
    intro as
    induction as with
    | nil => intro m h; exact h
    | cons a as ih => intro m h; exact ih _ (AMap.nodup_keys_set _ _ _ h)
  exact this as [] List.nodup_nil

/-- The value of the last annotation with a key. -/
theorem stringMap_get (as : List Annotation) (k : Bytes) :
    AMap.get (stringMap as) k = ((as.reverse.find? fun a => a.key = k).map Annotation.valueString) := by
  unfold stringMap
  have : ∀ (as : List Annotation) (m : AMap Bytes Bytes),
      AMap.get (as.foldl (fun m a => AMap.set m a.key a.valueString) m) k =
        match as.reverse.find? fun a => a.key = k with
        | some a => some a.valueString
        | none => AMap.get m k := by
    intro as
    induction as with
    | nil => intro m; rfl
    | cons a as ih =>
      intro m
      rw [List.foldl_cons, ih, List.reverse_cons, List.find?_append]
      cases as.reverse.find? fun a => decide (a.key = k) with
      | some b => rfl
      | none =>
        simp only [Option.none_or, AMap.get_set]
        by_cases h : a.key = k <;> simp [h]
  rw [this as []]
  cases as.reverse.find? fun a => decide (a.key = k) <;> rfl

/-- The sorted pairs have strictly increasing keys. -/
theorem mapToKVs_sorted (as : List Annotation) : SortedKV (mapToKVs (stringMap as)) :=
  sorted_sortKV (stringMap_keys_nodup as)

theorem mem_mapToKVs {as : List Annotation} {e : KV} :
    e ∈ mapToKVs (stringMap as) ↔ AMap.get (stringMap as) e.1 = some e.2 := by
  unfold mapToKVs
  rw [mem_sortKV]
  constructor
  · intro h; exact AMap.get_of_mem (stringMap_keys_nodup as) h
  · intro h; exact AMap.mem_of_get h

/-- A pair of the map is an annotation. -/
theorem mapToKVs_annotation {as : List Annotation} {e : KV} (h : e ∈ mapToKVs (stringMap as)) :
    ∃ a ∈ as, a.key = e.1 ∧ a.valueString = e.2 := by
  rw [mem_mapToKVs, stringMap_get] at h
  cases hf : as.reverse.find? fun a => decide (a.key = e.1) with
  | none => rw [hf] at h; simp at h
  | some a =>
    rw [hf] at h
    have h1 := List.find?_some hf
    exact ⟨a, List.mem_reverse.1 (List.mem_of_find?_eq_some hf), by simpa using h1, by simpa using h⟩

/-- An annotation whose key no other value carries is a pair of the map. -/
theorem annotation_mapToKVs {as : List Annotation} {a : Annotation} (h : a ∈ as)
    (hu : ∀ b ∈ as, b.key = a.key → b.valueString = a.valueString) : (a.key, a.valueString) ∈ mapToKVs (stringMap as) := by
  rw [mem_mapToKVs, stringMap_get]
  cases hf : as.reverse.find? fun b => decide (b.key = a.key) with
  | none =>
    have := List.find?_eq_none.1 hf a (List.mem_reverse.2 h)
    simp at this
  | some b =>
    have h1 := List.find?_some hf
    have h2 := List.mem_reverse.1 (List.mem_of_find?_eq_some hf)
    simp only [decide_eq_true_eq] at h1
    simp only [Option.map_some, hu b h2 h1]

end Appdash
