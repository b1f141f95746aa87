import Verif.Proofs.EventRich
import Verif.Proofs.EventFlat
import Mathlib.Data.List.Forall2

/-!
# Reading events with pointers, and types that can always be read
-/

namespace Appdash

theorem plain_text {t : RType} {v : RVal} (h : PlainField t v) : ∃ y : Bytes, (∀ (S : Texts) (pre : Bytes), flattenR S t pre v = some [(pre, y)]) ∧
    ∀ (pre : Bytes) (kv rest : List KV), dropUntil pre kv = (pre, y) :: rest → unflattenR t pre kv = some (v, rest, false) := by
  cases h with
  | @value s x h =>
    refine ⟨x.text, fun S pre => by simp [flattenR], fun pre kv rest hd => ?_⟩
    simp [unflattenR, readScalar, hd, parseScalar_text h]
  | @pointer s x h ht hdur =>
    refine ⟨x.text, fun S pre => ?_, fun pre kv rest hd => ?_⟩
    · have : stringOf S (.scalar false s) (.scalar x) = none := by cases s <;> simp_all [stringOf]
      simp [flattenR, this]
    · simp [unflattenR, hd, readPtr, ht, parsePtr, parseScalar_text h]

theorem mem_fieldFnsR {ns : List Bytes} {ts : List RType} {k : Nat} {a : Bytes × Nat × (Bytes → List KV → ReadR)} :
    a ∈ fieldFnsR ns ts k ↔ ∃ j t, ns[j]? = some a.1 ∧ ts[j]? = some t ∧ a.2.1 = k + j ∧ a.2.2 = unflattenR t := by
  induction ns generalizing ts k with
  | nil => simp [fieldFnsR]
  | cons n ns ih =>
    cases ts with
    | nil => simp [fieldFnsR]
    | cons t ts =>
      rw [fieldFnsR, List.mem_cons, ih]
      constructor
      · rintro (rfl | ⟨j, t', h1, h2, h3, h4⟩)
        · exact ⟨0, t, rfl, rfl, rfl, rfl⟩
        · exact ⟨j + 1, t', by simpa using h1, by simpa using h2, by omega, h4⟩
      · rintro ⟨j, t', h1, h2, h3, h4⟩
        cases j with
        | zero =>
          obtain ⟨n', i, f⟩ := a
          simp only [List.getElem?_cons_zero, Option.some.injEq] at h1 h2
          subst h1; subst h2
          exact .inl (by simp_all)
        | succ j => exact .inr ⟨j, t', by simpa using h1, by simpa using h2, by omega, h4⟩

theorem fieldFnsR_pos_nodup (ns : List Bytes) (ts : List RType) (k : Nat) : ((fieldFnsR ns ts k).map fun a => a.2.1).Nodup := by
  induction ns generalizing ts k with
  | nil => simp [fieldFnsR]
  | cons n ns ih =>
    cases ts with
    | nil => simp [fieldFnsR]
    | cons t ts =>
      rw [fieldFnsR, List.map_cons, List.nodup_cons]
      refine ⟨?_, ih ts (k + 1)⟩
      rw [List.mem_map]
      rintro ⟨a, ha, he⟩
      obtain ⟨j, t', -, -, h3, -⟩ := mem_fieldFnsR.1 ha
      simp only at he
      omega

theorem fieldFnsR_names (ns : List Bytes) (ts : List RType) (h : ns.length = ts.length) (k : Nat) :
    (fieldFnsR ns ts k).map Prod.fst = ns := by
  induction ns generalizing ts k with
  | nil => simp [fieldFnsR]
  | cons n ns ih =>
    cases ts with
    | nil => simp at h
    | cons t ts => rw [fieldFnsR, List.map_cons, ih ts (by simpa using h)]

theorem flat_fieldsR (ws : List RVal) (L : List (Bytes × Nat × (Bytes → List KV → ReadR))) (hL : SortedKV L)
    (hpos : (L.map fun a => a.2.1).Nodup) (vs : List RVal) (kv : List KV) (hs : SortedKV kv)
    (h : ∀ a ∈ L, ∃ y w, (∀ (kv rest : List KV), dropUntil a.1 kv = (a.1, y) :: rest → a.2.2 a.1 kv = some (w, rest, false)) ∧
      ws[a.2.1]? = some w ∧ a.2.1 < vs.length ∧ (a.1, y) ∈ kv) :
    ∃ vs' kv', readFields [] L vs kv = some (vs', kv', false) ∧ vs'.length = vs.length ∧
      (∀ a ∈ L, vs'[a.2.1]? = ws[a.2.1]?) ∧ ∀ i : Nat, (∀ a ∈ L, a.2.1 ≠ i) → vs'[i]? = vs[i]? := by
  induction L generalizing vs kv with
  | nil => exact ⟨vs, kv, rfl, rfl, by simp, fun _ _ => rfl⟩
  | cons a L ih =>
    obtain ⟨name, i, f⟩ := a
    obtain ⟨y, w, hf, hw, hi, hkv⟩ := h _ (List.mem_cons_self ..)
    simp only at hf hw hi hkv
    obtain ⟨rest, hd, hsuf, hrest⟩ := dropUntil_exact hs hkv
    rw [List.map_cons, List.nodup_cons] at hpos
    have hlt := (List.pairwise_cons.1 hL).1
    have hne : ∀ b ∈ L, b.2.1 ≠ i := fun b hb e => hpos.1 (List.mem_map.2 ⟨b, hb, e⟩)
    obtain ⟨vs', kv', e1, e2, e3, e4⟩ := ih (List.pairwise_cons.1 hL).2 hpos.2 (vs.set i w) rest
      (sorted_suffix hsuf hs) (by
        intro b hb
        obtain ⟨y', w', q1, q2, q3, q4⟩ := h b (List.mem_cons_of_mem _ hb)
        exact ⟨y', w', q1, q2, by simpa using q3, hrest _ q4 (hlt b hb)⟩)
    refine ⟨vs', kv', ?_, by simpa using e2, ?_, ?_⟩
    · have hn : nest [] name = name := rfl
      simp only [readFields, hn, hf _ _ hd, Bool.false_eq_true, if_false]
      exact e1
    · intro b hb
      rcases List.mem_cons.1 hb with rfl | hb
      · simp only
        rw [e4 i hne, List.getElem?_set_self hi, hw]
      · exact e3 b hb
    · intro j hj
      rw [e4 j fun b hb => hj b (List.mem_cons_of_mem _ hb), List.getElem?_set_ne (hj _ (List.mem_cons_self ..))]

theorem zerosR_eq_map (ts : List RType) : zerosR ts = ts.map RType.zero := by
  induction ts with
  | nil => rfl
  | cons t ts ih => rw [zerosR, ih, List.map_cons]

/-- The texts of plain fields. -/
theorem plain_texts {ts : List RType} {vs : List RVal} (h : List.Forall₂ PlainField ts vs) : ∃ ys : List Bytes, ys.length = ts.length ∧
    (∀ (S : Texts) (ns : List Bytes), ns.length = ts.length → flattenRFields S ns ts [] vs = some (ns.zip ys)) ∧
    ∀ (i : Nat) (t : RType) (y : Bytes) (v : RVal), ts[i]? = some t → ys[i]? = some y → vs[i]? = some v →
      ∀ (pre : Bytes) (kv rest : List KV), dropUntil pre kv = (pre, y) :: rest → unflattenR t pre kv = some (v, rest, false) := by
  induction h with
  | nil => exact ⟨[], rfl, by intro S ns hn; cases ns <;> simp_all [flattenRFields], by simp⟩
  | @cons t v ts vs h hs ih =>
    obtain ⟨y, h1, h2⟩ := plain_text h
    obtain ⟨ys, q1, q2, q3⟩ := ih
    refine ⟨y :: ys, by simp [q1], ?_, ?_⟩
    · intro S ns hn
      cases ns with
      | nil => simp at hn
      | cons n ns =>
        rw [flattenRFields, h1, q2 S ns (by simpa using hn)]
        rfl
    · intro i t' y' v' a b c
      cases i with
      | zero => cases a; cases b; cases c; exact h2
      | succ i => exact q3 i t' y' v' (by simpa using a) (by simpa using b) (by simpa using c)

/-- Reading an event of plain fields. -/
theorem plain_event_reads (S : Texts) (E : RichEvent) (ns : List Bytes) (ts : List RType) (ht : E.type = .struct ns ts) (hn : ns.Nodup)
    (hlen : ns.length = ts.length) (hne : ns ≠ []) (hrec : ∀ n ∈ ns, ¬ schemaPrefix <+: n) (vs : List RVal)
    (hp : List.Forall₂ PlainField ts vs) (own : List Annotation) (hm : MarshalsR S E (.struct vs) (some own))
    (before after : List Annotation) (hafter : ∀ a ∈ after, a.key ∉ ns) :
    unmarshalR E (before ++ own ++ after) = some (.struct vs, none) := by
  obtain ⟨ys, hy, hfl, hrd⟩ := plain_texts hp
  have hlv : ts.length = vs.length := hp.length_eq
  unfold MarshalsR at hm
  rw [ht, flattenR, hfl S ns hlen] at hm
  obtain ⟨kvs, hperm, hown⟩ := hm
  cases hown
  have hs : (schemas (before ++ (kvs.map annotationOf ++ [schemaMarker E.schema]) ++ after)).contains E.schema = true := by
    rw [List.contains_iff_mem, mem_schemas]
    exact ⟨schemaMarker E.schema, by simp, rfl⟩
  have hget : ∀ (i : Nat) (n y : Bytes), ns[i]? = some n → ys[i]? = some y →
      AMap.get (stringMap (before ++ (kvs.map annotationOf ++ [schemaMarker E.schema]) ++ after)) n = some y := by
    intro i n y h1 h2
    have hnm : n ∈ ns := List.mem_of_getElem? h1
    have hz : (n, y) ∈ ns.zip ys := List.mem_of_getElem? (i := i) (by simp [List.getElem?_zip_eq_some, h1, h2])
    rw [List.append_assoc]
    apply find?_append_last
    · exact ⟨annotationOf (n, y), by
        simp only [List.mem_append, List.mem_map]
        exact .inl (.inl ⟨_, hperm.mem_iff.2 hz, rfl⟩), rfl⟩
    · intro a ha hk
      rcases List.mem_append.1 ha with ha | ha
      · rcases List.mem_append.1 ha with ha | ha
        · obtain ⟨e, he, rfl⟩ := List.mem_map.1 ha
          obtain ⟨j, hj⟩ := List.mem_iff_getElem?.1 (hperm.mem_iff.1 he)
          rw [List.getElem?_zip_eq_some] at hj
          have hk' : e.1 = n := hk
          have : j = i := by
            have hj' := (List.getElem?_eq_some_iff.1 hj.1).1
            have hi := (List.getElem?_eq_some_iff.1 h1).1
            exact (List.getElem_inj hn).1 (by
              rw [(List.getElem?_eq_some_iff.1 hj.1).2, (List.getElem?_eq_some_iff.1 h1).2, hk'])
          subst this
          have := hj.2.symm.trans h2
          simpa [annotationOf, Annotation.valueString] using Option.some.inj this
        · simp only [List.mem_singleton] at ha
          subst ha
          exact absurd ⟨E.schema, hk⟩ (hrec n hnm)
      · exact absurd (hk ▸ hnm) (hafter a ha)
  have hkvm : ∀ (i : Nat) (n y : Bytes), ns[i]? = some n → ys[i]? = some y →
      (n, y) ∈ mapToKVs (stringMap (before ++ (kvs.map annotationOf ++ [schemaMarker E.schema]) ++ after)) := by
    intro i n y h1 h2
    rw [mem_mapToKVs]
    exact hget i n y h1 h2
  have hsorted := mapToKVs_sorted (before ++ (kvs.map annotationOf ++ [schemaMarker E.schema]) ++ after)
  generalize hK : mapToKVs (stringMap (before ++ (kvs.map annotationOf ++ [schemaMarker E.schema]) ++ after)) = kv at hkvm hsorted
  have hu : ∃ rest, unflattenR (.struct ns ts) [] kv = some (.struct vs, rest, false) := by
    obtain ⟨vs', kv', e1, e2, e3, -⟩ := flat_fieldsR vs (sortKV (fieldFnsR ns ts 0))
      (sorted_sortKV (by rw [fieldFnsR_names ns _ hlen]; exact hn))
      (((perm_sortKV (fieldFnsR ns ts 0)).map _).nodup_iff.2 (fieldFnsR_pos_nodup ns _ 0)) (zerosR ts) kv hsorted (by
      intro a ha
      obtain ⟨j, t, h1, h2, h3, h4⟩ := mem_fieldFnsR.1 (mem_sortKV.1 ha)
      have hj := (List.getElem?_eq_some_iff.1 h2).1
      have e : a.2.1 = j := by omega
      rw [e, h4]
      refine ⟨ys[j]'(by omega), vs[j]'(by omega), ?_, by simp, by simp [zerosR_eq_map, hj], ?_⟩
      · exact hrd j t _ _ h2 (List.getElem?_eq_getElem _) (List.getElem?_eq_getElem _) a.1
      · exact hkvm j a.1 _ h1 (List.getElem?_eq_getElem _))
    have heq : vs' = vs := by
      apply List.ext_getElem?
      intro j
      by_cases hj : j < ns.length
      · have : (ns[j], j, unflattenR (ts[j]'(by omega))) ∈ sortKV (fieldFnsR ns ts 0) := by
          rw [mem_sortKV, mem_fieldFnsR]
          exact ⟨j, _, List.getElem?_eq_getElem hj, List.getElem?_eq_getElem (by omega), by simp, rfl⟩
        exact e3 _ this
      · rw [List.getElem?_eq_none (by rw [e2, zerosR_eq_map]; simp; omega), List.getElem?_eq_none (by omega)]
    subst heq
    have hkv' : ∃ e kv0, kv = e :: kv0 := by
      cases ns with
      | nil => exact absurd rfl hne
      | cons n ns =>
        cases ys with
        | nil => simp only [List.length_cons, List.length_nil] at hlen hy; omega
        | cons y ys =>
          have := hkvm 0 n y rfl rfl
          cases kv with
          | nil => cases this
          | cons e kv0 => exact ⟨e, kv0, rfl⟩
    obtain ⟨e, kv0, rfl⟩ := hkv'
    refine ⟨kv', ?_⟩
    simp only [unflattenR, dropUntil_nil_pre, e1]
  obtain ⟨rest, hu⟩ := hu
  simp only [unmarshalR, hs, Bool.true_eq_false, if_false, ht, hK, hu, Option.map_some]

/-! ## Types that can always be read -/

theorem mapLoopR_steady (e : RType) (he : (∃ s, e = .scalar false s) ∨ ∃ s, e = .ptr (.scalar false s)) (kp : Bytes) (kv : List KV)
    (m : AMap Bytes RVal) (n : Nat) : mapLoopR true e kp kv m n ≠ none := by
  induction kv generalizing m n with
  | nil => simp [mapLoopR]
  | cons a kv ih =>
    rw [mapLoopR]
    split
    · exact ih m n
    · split
      · simp
      · have hp : parseElem e a.2 = .error ∨ ∃ v, parseElem e a.2 = .value v := by
          rcases he with ⟨s, rfl⟩ | ⟨s, rfl⟩
          · simp only [parseElem]
            cases parseScalar s a.2 <;> simp
          · simp only [parseElem, parsePtr]
            cases parseScalar s a.2 <;> simp
        rcases hp with hp | ⟨v, hp⟩ <;> rw [hp]
        · simp
        · simpa using ih _ _

theorem readMap_steady (e : RType) (he : (∃ s, e = .scalar false s) ∨ ∃ s, e = .ptr (.scalar false s)) (pre : Bytes) (kv : List KV) :
    readMap true e false pre kv ≠ none := by
  unfold readMap
  cases h : mapLoopR true e (pre ++ [46]) kv [] 0 with
  | none => exact absurd h (mapLoopR_steady e he _ _ _ _)
  | some r =>
    obtain ⟨m, n, err⟩ := r
    cases err
    · simp only [Bool.false_eq_true, if_false]
      split <;> simp
    · simp

theorem readFields_steady (pre : Bytes) (L : List (Bytes × Nat × (Bytes → List KV → ReadR)))
    (h : ∀ a ∈ L, ∀ pre kv, a.2.2 pre kv ≠ none) (vs : List RVal) (kv : List KV) : readFields pre L vs kv ≠ none := by
  induction L generalizing vs kv with
  | nil => simp [readFields]
  | cons a L ih =>
    obtain ⟨n, i, f⟩ := a
    rw [readFields]
    cases hf : f (nest pre n) kv with
    | none => exact absurd hf (h _ (List.mem_cons_self ..) _ _)
    | some r =>
      obtain ⟨v, kv', err⟩ := r
      cases err
      · simpa using ih (fun b hb => h b (List.mem_cons_of_mem _ hb)) _ _
      · simp

theorem struct_steady (ns : List Bytes) (ts : List RType) (h : ∀ t ∈ ts, ∀ pre kv, unflattenR t pre kv ≠ none) (pre : Bytes) (kv : List KV) :
    unflattenR (.struct ns ts) pre kv ≠ none := by
  rw [unflattenR]
  split
  · simp
  · rename_i e kv' _
    cases hr : readFields pre (sortKV (fieldFnsR ns ts 0)) (zerosR ts) (e :: kv') with
    | none =>
      refine absurd hr (readFields_steady _ _ ?_ _ _)
      intro a ha
      obtain ⟨j, t, h1, h2, h3, h4⟩ := mem_fieldFnsR.1 (mem_sortKV.1 ha)
      rw [h4]
      exact h t (List.mem_of_getElem? h2)
    | some r => simp

theorem steady_reads {t : RType} (h : Steady t) (pre : Bytes) (kv : List KV) : unflattenR t pre kv ≠ none := by
  induction h generalizing pre kv with
  | scalar s =>
    simp only [unflattenR, readScalar]
    split
    · simp
    · split <;> simp
  | «opaque» => simp [unflattenR]
  | pointer s =>
    simp only [unflattenR]
    split
    · simp
    · rename_i e kv' _
      simp only [readPtr]
      split
      · simp
      · simp only [parsePtr]
        cases parseScalar s e.2 <;> simp
  | struct ns ts _ ih => exact struct_steady ns ts ih pre kv
  | named n ns ts _ ih =>
    rw [unflattenR]
    · exact struct_steady ns ts ih pre kv
    · simp
  | map s =>
    rw [unflattenR]
    split
    · simp
    · exact readMap_steady _ (.inl ⟨s, rfl⟩) _ _
  | pointers s =>
    rw [unflattenR]
    split
    · simp
    · exact readMap_steady _ (.inr ⟨s, rfl⟩) _ _

/-- Events of types of `Verif.Model.Reflect` that are steady are read without a panic. -/
theorem steady_unmarshal (E : EventType) (h : Steady E.type.rich) (as : List Annotation) : unmarshalEvent E as E.type.zero ≠ none := by
  unfold unmarshalEvent
  split
  · simp
  · split
    · split <;> simp
    · have := steady_reads h [] (mapToKVs (stringMap as))
      rw [unflattenR_rich] at this
      cases hu : unflatten E.type [] E.type.zero (mapToKVs (stringMap as)) with
      | none => rw [hu] at this; exact absurd rfl this
      | some r => simp

theorem steady_loop (reg : Registry) (as : List Annotation) (h : ∀ s E, AMap.get reg s = some E → Steady E.type.rich) (ss : List Bytes)
    (evs : List (Bytes × GVal)) : unmarshalLoop reg as ss evs ≠ none := by
  induction ss generalizing evs with
  | nil => simp [unmarshalLoop]
  | cons s ss ih =>
    rw [unmarshalLoop]
    cases hg : AMap.get reg s with
    | none => exact ih evs
    | some E =>
      simp only
      cases hu : unmarshalEvent E as E.type.zero with
      | none => exact absurd hu (steady_unmarshal E (h s E hg) as)
      | some r =>
        obtain ⟨v, err⟩ := r
        cases err with
        | none => exact ih _
        | some e => simp

end Appdash
