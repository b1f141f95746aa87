import Verif.Proofs.EventRichRead
import Verif.Proofs.EventSpan

/-!
# Reading events with pointers in nested structs
-/

namespace Appdash

/-! ## Equality -/

theorem get_zip_rich (m : AMap Bytes Scalar) (k : Bytes) :
    AMap.get (m.keys.zip (m.map fun e => RVal.scalar e.2)) k = (AMap.get m k).map RVal.scalar := by
  induction m with
  | nil => rfl
  | cons e m ih =>
    simp only [AMap.keys, List.map_cons, List.zip_cons_cons, AMap.get, List.find?_cons] at ih ⊢
    by_cases h : e.1 = k
    · simp [h]
    · simpa [h] using ih

theorem mem_keys_iff_get (m : AMap Bytes Scalar) (k : Bytes) : k ∈ m.keys ↔ AMap.get m k ≠ none := by
  induction m with
  | nil => simp [AMap.keys, AMap.get]
  | cons e m ih =>
    simp only [AMap.keys, List.map_cons, List.mem_cons, AMap.get, List.find?_cons] at ih ⊢
    by_cases h : e.1 = k
    · simp [h]
    · simpa [h, Ne.symm h, eq_comm] using ih

theorem same_rich {v w : GVal} (h : v.Same w) : v.rich.Same w.rich := by
  induction h with
  | scalar s => exact .scalar s
  | struct vs ws len fields ih =>
    simp only [GVal.rich, richVals_eq_map]
    refine .struct _ _ (by simpa using len) ?_
    intro i v w hv hw
    rw [List.getElem?_map, Option.map_eq_some_iff] at hv hw
    obtain ⟨v, hv, rfl⟩ := hv
    obtain ⟨w, hw, rfl⟩ := hw
    exact ih i v w hv hw
  | map m n entries =>
    refine .map _ _ _ _ ?_ ?_
    · intro k; rw [mem_keys_iff_get, mem_keys_iff_get, entries]
    · intro k v w hv hw
      rw [get_zip_rich] at hv hw
      rw [entries, hw] at hv
      cases hv
      obtain ⟨x, _, rfl⟩ := Option.map_eq_some_iff.1 hw
      exact .scalar x
  | seq xs =>
    refine .seq _ _ rfl ?_
    intro i v w hv hw
    rw [hv] at hw
    cases hw
    rw [List.getElem?_map, Option.map_eq_some_iff] at hv
    obtain ⟨x, _, rfl⟩ := hv
    exact .scalar x

/-! ## The loop over the fields -/

/-- What reading a field is to do: consume the pairs of the field and give back its value. -/
def DecodesR (f : Bytes → List KV → ReadR) (P : Bytes) (v : RVal) (fl : List KV) (lv : List Bytes) : Prop :=
  ∀ kv : List KV, SortedKV kv → (∀ e ∈ fl, e ∈ kv) → (∀ e ∈ kv, e ∈ fl ∨ ∀ p ∈ lv, clash p e.1 = false) →
    ∃ v' kv', f P kv = some (v', kv', false) ∧ v.Same v' ∧ kv' <:+ kv ∧ ∀ e ∈ kv, (∀ k ∈ fl, k.1 < e.1) → e ∈ kv'

theorem fieldsR_decode (pre : Bytes) (fl : Nat → List KV) (lv : Nat → List Bytes) (ws : List RVal)
    (L : List (Bytes × Nat × (Bytes → List KV → ReadR)))
    (hsep : L.Pairwise fun a b => a.1 < b.1 ∧ clash a.1 b.1 = false)
    (hpos : (L.map fun a => a.2.1).Nodup) (vs : List RVal) (hlen : vs.length = ws.length)
    (hL : ∀ a ∈ L, ∃ v, ws[a.2.1]? = some v ∧
      DecodesR a.2.2 (nest pre a.1) v (fl a.2.1) (lv a.2.1) ∧ ∀ e ∈ fl a.2.1, clash (nest pre a.1) e.1 = true)
    (kv : List KV) (hs : SortedKV kv) (hin : ∀ a ∈ L, ∀ e ∈ fl a.2.1, e ∈ kv)
    (hfor : ∀ e ∈ kv, ∀ a ∈ L, e ∈ fl a.2.1 ∨ ∀ p ∈ lv a.2.1, clash p e.1 = false) :
    ∃ vs' kv', readFields pre L vs kv = some (vs', kv', false) ∧ vs'.length = ws.length ∧
      (∀ a ∈ L, ∃ v w, ws[a.2.1]? = some v ∧ vs'[a.2.1]? = some w ∧ v.Same w) ∧
      (∀ i : Nat, (∀ a ∈ L, a.2.1 ≠ i) → vs'[i]? = vs[i]?) ∧
      kv' <:+ kv ∧ ∀ e ∈ kv, (∀ a ∈ L, ∀ k ∈ fl a.2.1, k.1 < e.1) → e ∈ kv' := by
  induction L generalizing vs kv with
  | nil => exact ⟨vs, kv, rfl, hlen, by simp, fun _ _ => rfl, List.suffix_refl _, fun e he _ => he⟩
  | cons a L ih =>
    obtain ⟨name, i, f⟩ := a
    obtain ⟨v, hv, hdec, hcl⟩ := hL _ (List.mem_cons_self ..)
    simp only at hv hdec hcl
    have hsep' := List.pairwise_cons.1 hsep
    rw [List.map_cons, List.nodup_cons] at hpos
    obtain ⟨v', kv1, h1, h2, h3, h4⟩ := hdec kv hs (hin _ (List.mem_cons_self ..))
      (fun e he => hfor e he _ (List.mem_cons_self ..))
    have hil : i < vs.length := by have := (List.getElem?_eq_some_iff.1 hv).1; omega
    have hne : ∀ b ∈ L, b.2.1 ≠ i := by
      intro b hb he
      exact hpos.1 (List.mem_map.2 ⟨b, hb, he⟩)
    have hlt : ∀ b ∈ L, ∀ e ∈ fl b.2.1, ∀ k ∈ fl i, k.1 < e.1 := by
      intro b hb e he k hk
      have hb' := hsep'.1 b hb
      obtain ⟨_, _, _, hclb⟩ := hL b (List.mem_cons_of_mem _ hb)
      refine clash_sep ((nest_lt_nest pre _ _).2 hb'.1) ?_ (hcl k hk) (hclb e he)
      rw [nest_clash_nest]; exact hb'.2
    obtain ⟨vs', kv', r1, r2, r3, r4, r5, r6⟩ := ih hsep'.2 hpos.2 (vs.set i v') (by simpa using hlen)
      (fun b hb => hL b (List.mem_cons_of_mem _ hb))
      kv1 (sorted_suffix h3 hs)
      (by
        intro b hb e he
        exact h4 e (hin b (List.mem_cons_of_mem _ hb) e he) fun k hk => hlt b hb e he k hk)
      (fun e he b hb => hfor e (h3.subset he) b (List.mem_cons_of_mem _ hb))
    refine ⟨vs', kv', ?_, r2, ?_, ?_, r5.trans h3, ?_⟩
    · simp only [readFields, h1, Bool.false_eq_true, if_false]
      exact r1
    · intro b hb
      rcases List.mem_cons.1 hb with rfl | hb
      · refine ⟨v, v', hv, ?_, h2⟩
        simp only
        rw [r4 i hne, List.getElem?_set_self hil]
      · exact r3 b hb
    · intro j hj
      have hij : i ≠ j := hj _ (List.mem_cons_self ..)
      rw [r4 j fun b hb => hj b (List.mem_cons_of_mem _ hb), List.getElem?_set_ne hij]
    · intro e he hk
      exact r6 e (h4 e he (hk _ (List.mem_cons_self ..))) fun b hb => hk b (List.mem_cons_of_mem _ hb)

/-! ## Values without their pointers -/

/-- `t` and `v` are like `R` and `V`, with what pointers point to in place of the pointers. -/
structure Erases (R : RType) (V : RVal) (t : GType) (v : GVal) : Prop where
  plain : t.plain = true
  holds : t.holds v = true
  full : v.full = true
  texts : ∀ (S : Texts) (pre : Bytes), flattenR S R pre V = some (flatten t pre v)
  leafy : V.Leafy → v.hasLeaf = true
  struct : v.isStruct = true → ∃ ws, V = .struct ws
  reads : ∀ P : Bytes, P ≠ [] → (v.isStruct = true → v.hasLeaf = true) → DecodesR (unflattenR R) P V (flatten t P v) (leaves t P)

theorem erases_all (ts : List RType) (vs : List RVal) (hlen : ts.length = vs.length)
    (h : ∀ (i : Nat) (t : RType) (v : RVal), ts[i]? = some t → vs[i]? = some v → ∃ t' v', Erases t v t' v')
    (hl : ∀ ws, RVal.struct ws ∈ vs → (RVal.struct ws).Leafy) :
    ∃ (ts' : List GType) (vs' : List GVal), ts'.length = ts.length ∧ vs'.length = vs.length ∧ plainAll ts' = true ∧ holdsAll ts' vs' = true ∧
      fullAll vs' = true ∧
      (∀ (S : Texts) (ns : List Bytes) (pre : Bytes), ns.length = ts.length → flattenRFields S ns ts pre vs = some (flattenFields ns ts' pre vs')) ∧
      ((∃ v ∈ vs, v.Leafy) → anyLeaf vs' = true) ∧
      ∀ (i : Nat) (R : RType) (V : RVal) (t : GType) (v : GVal), ts[i]? = some R → vs[i]? = some V → ts'[i]? = some t → vs'[i]? = some v →
        Erases R V t v := by
  induction ts generalizing vs with
  | nil =>
    cases vs with
    | cons => simp at hlen
    | nil =>
      refine ⟨[], [], rfl, rfl, rfl, rfl, rfl, ?_, by simp, by simp⟩
      intro S ns pre hn
      cases ns with
      | nil => rfl
      | cons => simp at hn
  | cons R ts ih =>
    cases vs with
    | nil => simp at hlen
    | cons V vs =>
      obtain ⟨t, v, e⟩ := h 0 R V rfl rfl
      obtain ⟨ts', vs', h1, h2, h3, h4, h5, h6, h7, h8⟩ := ih vs (by simpa using hlen)
        (fun i t v a b => h (i + 1) t v (by simpa using a) (by simpa using b)) (fun ws hw => hl ws (List.mem_cons_of_mem _ hw))
      refine ⟨t :: ts', v :: vs', by simp [h1], by simp [h2], by simp [plainAll, e.plain, h3], by simp [holdsAll, e.holds, h4], ?_, ?_, ?_, ?_⟩
      · simp only [fullAll, e.full, h5, Bool.and_true, Bool.true_and, Bool.or_eq_true, Bool.not_eq_true']
        cases hv : v.isStruct with
        | false => exact .inl rfl
        | true =>
          obtain ⟨ws, rfl⟩ := e.struct hv
          exact .inr (e.leafy (hl ws (List.mem_cons_self ..)))
      · intro S ns pre hn
        cases ns with
        | nil => simp at hn
        | cons n ns =>
          rw [flattenRFields, e.texts, h6 S ns pre (by simpa using hn)]
          rfl
      · rintro ⟨w, hw, hlw⟩
        simp only [anyLeaf, Bool.or_eq_true]
        rcases List.mem_cons.1 hw with rfl | hw
        · exact .inl (e.leafy hlw)
        · exact .inr (h7 ⟨w, hw, hlw⟩)
      · intro i R' V' t' v' a b c d
        cases i with
        | zero => cases a; cases b; cases c; cases d; exact e
        | succ i => exact h8 i R' V' t' v' (by simpa using a) (by simpa using b) (by simpa using c) (by simpa using d)

/-- Reading a struct from sorted pairs that contain its own. -/
theorem structR_decodes (ns : List Bytes) (rs : List RType) (us : List RVal) (ts : List GType) (vs : List GVal) (pre : Bytes)
    (hlr : ns.length = rs.length) (hlu : ns.length = us.length) (hlen : ns.length = ts.length) (hlv : ts.length = vs.length)
    (hn : namesApart ns = true)
    (he : ∀ (i : Nat) (R : RType) (V : RVal) (t : GType) (v : GVal), rs[i]? = some R → us[i]? = some V → ts[i]? = some t →
      vs[i]? = some v → Erases R V t v)
    (hleaf : ∀ v ∈ vs, v.isStruct = true → v.hasLeaf = true)
    (kv : List KV) (hs : SortedKV kv) (hin : ∀ e ∈ flattenFields ns ts pre vs, e ∈ kv)
    (hfor : ∀ e ∈ kv, e ∈ flattenFields ns ts pre vs ∨ ∀ p ∈ leavesAll ns ts pre, clash p e.1 = false)
    (hstart : (pre = [] ∧ kv ≠ []) ∨ ∃ e, e ∈ flattenFields ns ts pre vs)
    (hpre : ∀ e ∈ flattenFields ns ts pre vs, pre.isPrefixOf e.1 = true) :
    ∃ v' kv', unflattenR (.struct ns rs) pre kv = some (v', kv', false) ∧ (RVal.struct us).Same v' ∧ kv' <:+ kv ∧
      ∀ e ∈ kv, (∀ k ∈ flattenFields ns ts pre vs, k.1 < e.1) → e ∈ kv' := by
  obtain ⟨hne, hapart⟩ := namesApart_spec hn
  have hg : ∀ (j : Nat) (n : Bytes) (t : GType) (v : GVal), ns[j]? = some n → ts[j]? = some t → vs[j]? = some v →
      Unflattens t (nest pre n) v := by
    intro j n t v h1 h2 h3
    have hj := (List.getElem?_eq_some_iff.1 h1).1
    have e := he j _ _ t v (List.getElem?_eq_getElem (show j < rs.length by omega)) (List.getElem?_eq_getElem (show j < us.length by omega)) h2 h3
    exact good_type t _ v (nest_ne_nil pre (hne n (List.mem_of_getElem? h1))) e.plain e.holds e.full (hleaf v (List.mem_of_getElem? h3))
  -- the pairs and the paths of the field at a position
  let fl : Nat → List KV := fun j => match ns[j]?, ts[j]?, vs[j]? with
    | some n, some t, some v => flatten t (nest pre n) v
    | _, _, _ => []
  let lv : Nat → List Bytes := fun j => match ns[j]?, ts[j]? with
    | some n, some t => leaves t (nest pre n)
    | _, _ => []
  have hfl : ∀ (j : Nat) n t v, ns[j]? = some n → ts[j]? = some t → vs[j]? = some v →
      fl j = flatten t (nest pre n) v := by
    intro j n t v h1 h2 h3; simp only [fl, h1, h2, h3]
  have hlvv : ∀ (j : Nat) n t, ns[j]? = some n → ts[j]? = some t → lv j = leaves t (nest pre n) := by
    intro j n t h1 h2; simp only [lv, h1, h2]
  have hmem : ∀ a ∈ sortKV (fieldFnsR ns rs 0), ∃ (R : RType) (V : RVal) (t : GType) (v : GVal), ns[a.2.1]? = some a.1 ∧
      ts[a.2.1]? = some t ∧ vs[a.2.1]? = some v ∧ rs[a.2.1]? = some R ∧ us[a.2.1]? = some V ∧ a.2.2 = unflattenR R := by
    intro a ha
    obtain ⟨j, R, h1, h2, h3, h4⟩ := mem_fieldFnsR.1 (mem_sortKV.1 ha)
    have : a.2.1 = j := by omega
    rw [this]
    have hj := (List.getElem?_eq_some_iff.1 h2).1
    exact ⟨R, _, _, _, h1, List.getElem?_eq_getElem (show j < ts.length by omega), List.getElem?_eq_getElem (show j < vs.length by omega), h2,
      List.getElem?_eq_getElem (show j < us.length by omega), h4⟩
  have hsorted : SortedKV (sortKV (fieldFnsR ns rs 0)) :=
    sorted_sortKV (by rw [fieldFnsR_names ns rs hlr]; exact namesApart_nodup hn)
  have hposnd : ((sortKV (fieldFnsR ns rs 0)).map fun a => a.2.1).Nodup :=
    ((perm_sortKV (fieldFnsR ns rs 0)).map _).nodup_iff.2 (fieldFnsR_pos_nodup ns rs 0)
  have hsep : (sortKV (fieldFnsR ns rs 0)).Pairwise fun a b => a.1 < b.1 ∧ clash a.1 b.1 = false := by
    refine List.Pairwise.imp_of_mem ?_ hsorted
    intro a b ha hb hlt
    refine ⟨hlt, ?_⟩
    obtain ⟨_, _, _, _, h1, _⟩ := hmem a ha
    obtain ⟨_, _, _, _, h2, _⟩ := hmem b hb
    refine hapart _ _ _ _ h1 h2 ?_
    intro he
    rw [he] at h1
    rw [h1] at h2
    rw [Option.some.inj h2] at hlt
    exact blt_irrefl _ hlt
  have hd : ∀ e ∈ flattenFields ns ts pre vs, e ∈ dropUntil pre kv := fun e he => mem_dropUntil (hin e he) (hpre e he)
  have hsuf := dropUntil_suffix pre kv
  have hsd := sorted_suffix hsuf hs
  have main := fieldsR_decode pre fl lv us (sortKV (fieldFnsR ns rs 0)) hsep hposnd (zerosR rs)
    (by rw [zerosR_eq_map, List.length_map]; omega)
    (by
      intro a ha
      obtain ⟨R, V, t, v, h1, h2, h3, h5, h6, h4⟩ := hmem a ha
      have g := hg _ _ _ _ h1 h2 h3
      refine ⟨V, h6, ?_, ?_⟩
      · rw [hfl _ _ _ _ h1 h2 h3, hlvv _ _ _ h1 h2, h4]
        exact (he _ R V t v h5 h6 h2 h3).reads _ (nest_ne_nil pre (hne _ (List.mem_of_getElem? h1))) (hleaf v (List.mem_of_getElem? h3))
      · rw [hfl _ _ _ _ h1 h2 h3]; exact g.keys)
    (dropUntil pre kv) hsd
    (by
      intro a ha e he
      obtain ⟨R, V, t, v, h1, h2, h3, _⟩ := hmem a ha
      rw [hfl _ _ _ _ h1 h2 h3] at he
      exact hd e (mem_flattenFields.2 ⟨_, _, _, _, h1, h2, h3, he⟩))
    (by
      intro e he a ha
      obtain ⟨R, V, t, v, h1, h2, h3, _⟩ := hmem a ha
      rw [hfl _ _ _ _ h1 h2 h3, hlvv _ _ _ h1 h2]
      have g := hg _ _ _ _ h1 h2 h3
      rcases hfor e (hsuf.subset he) with h | h
      · obtain ⟨j, n, t', v', k1, k2, k3, k4⟩ := mem_flattenFields.1 h
        by_cases hj : j = a.2.1
        · subst hj
          rw [h1] at k1; rw [h2] at k2; rw [h3] at k3
          cases Option.some.inj k1; cases Option.some.inj k2; cases Option.some.inj k3
          exact .inl k4
        · right
          intro p hp
          cases hc : clash p e.1 with
          | false => rfl
          | true =>
            exfalso
            have c1 := clash_trans (g.paths p hp) hc
            have c2 := (hg _ _ _ _ k1 k2 k3).keys e k4
            refine clash_disjoint ?_ ?_ c1 c2
            · rw [nest_clash_nest]; exact hapart _ _ _ _ h1 k1 (Ne.symm hj)
            · rw [nest_clash_nest]; exact hapart _ _ _ _ k1 h1 hj
      · right
        intro p hp
        exact h p (mem_leavesAll.2 ⟨_, _, _, h1, h2, hp⟩))
  obtain ⟨vs', kv', r1, r2, r3, r4, r5, r6⟩ := main
  have hsame : (RVal.struct us).Same (.struct vs') := by
    refine .struct us vs' r2.symm ?_
    intro j v w hv hw
    have hj := (List.getElem?_eq_some_iff.1 hv).1
    have ha : (ns[j]'(by omega), j, unflattenR (rs[j]'(by omega))) ∈ sortKV (fieldFnsR ns rs 0) :=
      mem_sortKV.2 (mem_fieldFnsR.2 ⟨j, _, List.getElem?_eq_getElem _, List.getElem?_eq_getElem _, by simp, rfl⟩)
    obtain ⟨v2, w2, q1, q2, q3⟩ := r3 _ ha
    simp only at q1 q2
    rw [hv] at q1; rw [hw] at q2
    cases Option.some.inj q1; cases Option.some.inj q2
    exact q3
  have hcons : ∃ e kv0, dropUntil pre kv = e :: kv0 := by
    cases hdu : dropUntil pre kv with
    | cons e kv0 => exact ⟨e, kv0, rfl⟩
    | nil =>
      rcases hstart with ⟨rfl, h⟩ | ⟨e, he⟩
      · rw [dropUntil_nil_pre] at hdu; exact absurd hdu h
      · have := hd e he; rw [hdu] at this; cases this
  obtain ⟨e0, kv0, hc⟩ := hcons
  refine ⟨.struct vs', kv', ?_, hsame, r5.trans hsuf, ?_⟩
  · rw [hc] at r1
    simp only [unflattenR, hc, r1]
  · intro e he hk
    apply r6 e
    · rcases hstart with ⟨h, -⟩ | ⟨k, hkm⟩
      · subst h
        rw [dropUntil_nil_pre]; exact he
      · exact mem_suffix_of_lt hs hsuf (hd k hkm) he (hk k hkm)
    · intro a ha k hka
      obtain ⟨R, V, t, v, h1, h2, h3, _⟩ := hmem a ha
      rw [hfl _ _ _ _ h1 h2 h3] at hka
      exact hk k (mem_flattenFields.2 ⟨_, _, _, _, h1, h2, h3, hka⟩)

theorem decodesR_pointer (s : ScalarTy) (x : Scalar) (h : s.holds x = true) (ht : s ≠ .time) (P : Bytes) :
    DecodesR (unflattenR (.ptr (.scalar false s))) P (.ptr (.scalar x)) [(P, x.text)] [P] := by
  intro kv hs hin _
  have hmem := hin (P, x.text) (List.mem_singleton.2 rfl)
  obtain ⟨rest, hd, hsuf, hrest⟩ := dropUntil_exact hs hmem
  refine ⟨.ptr (.scalar x), rest, ?_, .ptr _ _ (.scalar x), hsuf, ?_⟩
  · simp [unflattenR, hd, readPtr, ht, parsePtr, parseScalar_text h]
  · intro e he hk
    exact hrest e he (hk _ (List.mem_singleton.2 rfl))

/-! ## Maps and sequences of pointers -/

/-- A pointer to a scalar. -/
abbrev RVal.to (x : Scalar) : RVal := .ptr (.scalar x)

theorem stringOf_pointer {s : ScalarTy} (ht : s ≠ .time) (hd : s ≠ .duration) (S : Texts) (x : Scalar) :
    stringOf S (.scalar false s) (.scalar x) = none := by
  cases s <;> simp_all [stringOf]

theorem flattenRSeq_pointers {s : ScalarTy} (ht : s ≠ .time) (hd : s ≠ .duration) (S : Texts) (pre : Bytes) : ∀ (xs : List Scalar) (i : Nat),
    flattenRSeq S (.ptr (.scalar false s)) pre i (xs.map .to) = some (flattenSeq pre i xs)
  | [], i => rfl
  | x :: xs, i => by
    simp [flattenRSeq, flattenR, flattenSeq, stringOf_pointer ht hd, flattenRSeq_pointers ht hd S pre xs (i + 1)]

theorem flattenREntries_pointers {s : ScalarTy} (ht : s ≠ .time) (hd : s ≠ .duration) (S : Texts) (pre : Bytes) : ∀ (m : AMap Bytes Scalar),
    flattenREntries S (.ptr (.scalar false s)) pre m.keys (m.map fun e => .to e.2) = some (flattenMap pre m)
  | [] => rfl
  | e :: m => by
    have := flattenREntries_pointers ht hd S pre m
    simp only [AMap.keys, List.map_cons, flattenREntries, flattenR, flattenMap, stringOf_pointer ht hd] at this ⊢
    rw [this]
    rfl

theorem set_pointers (m : AMap Bytes Scalar) (k : Bytes) (x : Scalar) :
    AMap.set (m.map fun a => (a.1, RVal.to a.2)) k (.to x) = (AMap.set m k x).map fun a => (a.1, RVal.to a.2) := by
  induction m with
  | nil => rfl
  | cons a m ih =>
    obtain ⟨k', v'⟩ := a
    simp only [List.map_cons, AMap.set]
    split
    · rfl
    · rw [ih]; rfl

theorem mapLoopR_pointers (e : ScalarTy) (kp : Bytes) (kv : List KV) (m : AMap Bytes Scalar) (n : Nat) :
    mapLoopR true (.ptr (.scalar false e)) kp kv (m.map fun a => (a.1, RVal.to a.2)) n =
      some ((mapLoop e kp kv m n).1.map fun a => (a.1, RVal.to a.2), (mapLoop e kp kv m n).2) := by
  induction kv generalizing m n with
  | nil => rfl
  | cons a kv ih =>
    simp only [mapLoopR, mapLoop]
    split
    · exact ih m n
    · split
      · rfl
      · simp only [parseElem, parsePtr]
        cases parseScalar e a.2 with
        | none => rfl
        | some x =>
          simp only [Bool.false_eq_true, if_false, if_true]
          rw [← ih]
          rw [set_pointers]

theorem get_zip_pointers (m : AMap Bytes Scalar) (k : Bytes) :
    AMap.get (m.keys.zip (m.map fun e => RVal.to e.2)) k = (AMap.get m k).map RVal.to := by
  induction m with
  | nil => rfl
  | cons e m ih =>
    simp only [AMap.keys, List.map_cons, List.zip_cons_cons, AMap.get, List.find?_cons] at ih ⊢
    by_cases h : e.1 = k
    · simp [h]
    · simpa [h] using ih

theorem decodesR_pointers (s : ScalarTy) (m : AMap Bytes Scalar) (h : (GType.map s).holds (.map m) = true) (P : Bytes) (hP : P ≠ []) :
    DecodesR (unflattenR (.map true (.ptr (.scalar false s)))) P (.map m.keys (m.map fun e => .to e.2)) (flattenMap P m) [P] := by
  intro kv hs hin hfor
  have g := (good_type (.map s) P (.map m) hP rfl h rfl (by simp [GVal.isStruct])).decodes
  simp only [flatten, leaves] at g
  obtain ⟨v', kv', h1, h2, h3, h4⟩ := g kv hs hin hfor
  cases h2 with
  | map _ m' entries =>
    refine ⟨.map m'.keys (m'.map fun e => .to e.2), kv', ?_, ?_, h3, h4⟩
    · simp only [unflatten, unflattenMap, GType.zero] at h1
      have hl := mapLoopR_pointers s (P ++ [46]) kv [] 0
      simp only [List.map_nil] at hl
      simp only [unflattenR, readMap, hl]
      by_cases hk : kv = []
      · subst hk
        simp only [mapLoop] at h1
        simp at h1
        obtain ⟨rfl, rfl⟩ := h1
        rfl
      · rw [if_neg hk]
        generalize mapLoop s (P ++ [46]) kv [] 0 = r at h1 ⊢
        obtain ⟨m2, n, err⟩ := r
        cases err
        · by_cases hn : 0 < n
          · simp [hn] at h1
            obtain ⟨rfl, rfl⟩ := h1
            simp [hn, AMap.keys]
          · simp [hn] at h1
            obtain ⟨rfl, rfl⟩ := h1
            simp [hn, AMap.keys]
        · simp at h1
    · refine .map _ _ _ _ ?_ ?_
      · intro k; rw [mem_keys_iff_get, mem_keys_iff_get, entries]
      · intro k v w hv hw
        rw [get_zip_pointers] at hv hw
        rw [entries, hw] at hv
        cases hv
        obtain ⟨x, _, rfl⟩ := Option.map_eq_some_iff.1 hw
        exact .ptr _ _ (.scalar x)

theorem storeElems_length {e : ScalarTy} : ∀ {es : List (Int × Bytes)} {xs zs : List Scalar} {b : Bool}, storeElems e es xs = some (zs, b) →
    zs.length = xs.length
  | [], xs, zs, b, h => by cases h; rfl
  | a :: es, xs, zs, b, h => by
    simp only [storeElems] at h
    split at h
    · cases h; rfl
    · split at h
      · have := storeElems_length h; simpa using this
      · cases h

/-- Storing pointers is like storing scalars, at the positions that are stored. -/
theorem storeR_pointers (e : ScalarTy) (es : List (Int × Bytes)) (xs zs : List Scalar) (h : storeElems e es xs = some (zs, false))
    (ys : List RVal) (hl : ys.length = xs.length) :
    ∃ ws, storeR (.ptr (.scalar false e)) es ys = some (ws, false) ∧ ws.length = xs.length ∧
      ∀ j : Nat, ((∃ a ∈ es, a.1 = (j : Int)) → ws[j]? = (zs[j]?).map RVal.to) ∧
        ((¬ ∃ a ∈ es, a.1 = (j : Int)) → zs[j]? = xs[j]? ∧ ws[j]? = ys[j]?) := by
  induction es generalizing xs ys with
  | nil => cases h; exact ⟨ys, rfl, hl, by simp⟩
  | cons a es ih =>
    simp only [storeElems] at h
    cases hp : parseScalar e a.2 with
    | none => simp [hp] at h
    | some x =>
      simp only [hp] at h
      by_cases hr : 0 ≤ a.1 ∧ a.1 < xs.length
      · rw [if_pos hr] at h
        obtain ⟨ws, h1, h2, h3⟩ := ih (xs.set a.1.toNat x) h (ys.set a.1.toNat (.to x)) (by simpa using hl)
        refine ⟨ws, ?_, by simpa using h2, ?_⟩
        · simp only [storeR, parseElem, parsePtr, hp, Bool.false_eq_true, if_false]
          rw [if_pos (by rw [hl]; exact hr)]
          exact h1
        · intro j
          obtain ⟨k1, k2⟩ := h3 j
          by_cases he : ∃ b ∈ es, b.1 = (j : Int)
          · obtain ⟨b, hb, hbj⟩ := he
            exact ⟨fun _ => k1 ⟨b, hb, hbj⟩, fun hn => absurd ⟨b, List.mem_cons_of_mem _ hb, hbj⟩ hn⟩
          · obtain ⟨q1, q2⟩ := k2 he
            by_cases hj : a.1 = (j : Int)
            · refine ⟨fun _ => ?_, fun hn => absurd ⟨a, List.mem_cons_self .., hj⟩ hn⟩
              have hjn : a.1.toNat = j := by omega
              rw [q1, q2, hjn, List.getElem?_set_self (by omega), List.getElem?_set_self (by omega)]
              rfl
            · refine ⟨fun hy => ?_, fun _ => ?_⟩
              · obtain ⟨b, hb, hbj⟩ := hy
                rcases List.mem_cons.1 hb with rfl | hb
                · exact absurd hbj hj
                · exact absurd ⟨b, hb, hbj⟩ he
              · have hne : a.1.toNat ≠ j := by omega
                rw [q1, q2, List.getElem?_set_ne hne, List.getElem?_set_ne hne]
                exact ⟨rfl, rfl⟩
      · rw [if_neg hr] at h
        cases h

/-- A scalar other than the given one. -/
theorem other_scalar (x : Scalar) : ∃ y : Scalar, y ≠ x := by
  by_cases h : x = .bool true
  · exact ⟨.bool false, by rw [h]; simp⟩
  · exact ⟨.bool true, fun e => h e.symm⟩

theorem decodesR_seq (len : Option Nat) (s : ScalarTy) (xs : List Scalar) (hne : xs ≠ []) (hlen : xs.length < 2 ^ 63)
    (hn : ∀ n, len = some n → xs.length = n) (hh : ∀ x ∈ xs, s.holds x = true) (P : Bytes) (hP : P ≠ []) :
    DecodesR (readSeq len (.ptr (.scalar false s))) P (.seq (xs.map .to)) (flattenSeq P 0 xs) [P] := by
  intro kv hs hin hfor
  have hslice := decodes_seq true s xs hne hlen hh P hP (.seq []) (by simp) kv hs hin hfor
  have harr : ∀ X : List Scalar, X.length = xs.length → ∃ kv', unflattenSeq false s P (.seq X) kv = some (.seq xs, kv', false) := by
    intro X hX
    obtain ⟨v', kv', h1, h2, -⟩ := decodes_seq false s xs hne hlen hh P hP (.seq X) (fun _ => hX) kv hs hin hfor
    cases h2
    exact ⟨kv', h1⟩
  obtain ⟨v', kv', h1, h2, h3, h4⟩ := hslice
  cases h2
  refine ⟨.seq (xs.map .to), kv', ?_, ?_, h3, h4⟩
  · unfold readSeq
    unfold unflattenSeq at h1 harr
    cases hd : dropUntil P kv with
    | nil =>
      simp only [hd] at h1
      cases h1
      exact absurd rfl hne
    | cons e0 rest0 =>
      simp only [hd] at h1 harr ⊢
      generalize seqLoop (P ++ [46]) (e0 :: rest0) = r at h1 harr ⊢
      obtain ⟨es, rest, err⟩ := r
      cases err with
      | true => simp at h1
      | false =>
        simp only [Bool.false_eq_true, if_false, if_true, GVal.elems] at h1 harr ⊢
        cases hst : storeElems s es (List.replicate ((maxIndex es).toNat + 1) s.zero) with
        | none => simp [hst] at h1
        | some r =>
          obtain ⟨zs, b⟩ := r
          simp only [hst] at h1
          cases h1
          have hml := storeElems_length hst
          rw [List.length_replicate] at hml
          have harr' : ∀ X : List Scalar, X.length = xs.length → storeElems s es X = some (xs, false) := by
            intro X hX
            obtain ⟨kv2, h⟩ := harr X hX
            cases hq : storeElems s es X with
            | none => simp [hq] at h
            | some r =>
              obtain ⟨zs, b⟩ := r
              simp only [hq] at h
              cases h
              rfl
          -- every position is stored: the result does not depend on what was there
          have hall : ∀ j : Nat, j < xs.length → ∃ a ∈ es, a.1 = (j : Int) := by
            intro j hj
            obtain ⟨y, hy⟩ := other_scalar xs[j]
            obtain ⟨ws, -, -, w3⟩ := storeR_pointers s es (xs.set j y) xs (harr' _ (by simp)) (List.replicate xs.length .nil) (by simp)
            by_cases he : ∃ a ∈ es, a.1 = (j : Int)
            · exact he
            · exfalso
              have := ((w3 j).2 he).1
              rw [List.getElem?_set_self hj, List.getElem?_eq_getElem hj] at this
              exact hy (Option.some.inj this).symm
          have hfin : ∀ n, n = xs.length → storeR (.ptr (.scalar false s)) es (List.replicate n (RType.ptr (.scalar false s)).zero) =
              some (xs.map .to, false) := by
            intro n hn'
            obtain ⟨ws, w1, w2, w3⟩ := storeR_pointers s es xs xs (harr' xs rfl) (List.replicate n (RType.ptr (.scalar false s)).zero)
              (by simp [hn'])
            rw [w1]
            have : ws = xs.map .to := by
              apply List.ext_getElem?
              intro j
              by_cases hj : j < xs.length
              · rw [(w3 j).1 (hall j hj), List.getElem?_map]
              · rw [List.getElem?_eq_none (by omega), List.getElem?_eq_none (by simp; omega)]
            rw [this]
          rw [hfin _ (by
            cases len with
            | none => exact hml.symm
            | some n => exact (hn n rfl).symm)]
  · refine .seq _ _ rfl ?_
    intro i v w hv hw
    rw [hv] at hw
    cases hw
    rw [List.getElem?_map, Option.map_eq_some_iff] at hv
    obtain ⟨x, _, rfl⟩ := hv
    exact .ptr _ _ (.scalar x)

theorem leafy_rich {V : RVal} (h : V.Leafy) : ∀ v : GVal, V = v.rich → v.hasLeaf = true := by
  induction h with
  | scalar s => intro v hv; cases v <;> simp [GVal.rich] at hv <;> rfl
  | ptr w => intro v hv; cases v <;> simp [GVal.rich] at hv
  | map h =>
    intro v hv
    cases v with
    | map m =>
      simp only [GVal.rich, RVal.map.injEq] at hv
      cases m with
      | nil => exact absurd hv.1 (by simpa [AMap.keys] using h)
      | cons e m => rfl
    | _ => simp [GVal.rich] at hv
  | seq h =>
    intro v hv
    cases v with
    | seq xs =>
      simp only [GVal.rich, RVal.seq.injEq] at hv
      cases xs with
      | nil => exact absurd hv (by simpa using h)
      | cons e m => rfl
    | _ => simp [GVal.rich] at hv
  | @struct w ws mem leaf ih =>
    intro v hv
    cases v with
    | struct vs =>
      simp only [GVal.rich, RVal.struct.injEq, richVals_eq_map] at hv
      subst hv
      obtain ⟨u, hu, rfl⟩ := List.mem_map.1 mem
      have hul := ih u rfl
      simp only [GVal.hasLeaf]
      clear ih leaf mem
      induction vs with
      | nil => cases hu
      | cons a vs ih =>
        simp only [anyLeaf, Bool.or_eq_true]
        rcases List.mem_cons.1 hu with rfl | hu
        · exact .inl hul
        · exact .inr (ih hu)
    | _ => simp [GVal.rich] at hv

theorem value_erases {t : GType} {v : GVal} (plain : t.plain = true) (holds : t.holds v = true) (full : v.full = true) :
    Erases t.rich v.rich t v := by
  refine ⟨plain, holds, full, fun S pre => flattenR_rich S v t pre, fun hl => leafy_rich hl v rfl, ?_, ?_⟩
  · intro hs
    cases v <;> simp [GVal.isStruct] at hs
    exact ⟨_, rfl⟩
  · intro P hP hl kv hs hin hfor
    obtain ⟨v', kv', h1, h2, h3⟩ := (good_type t P v hP plain holds full hl).decodes kv hs hin hfor
    exact ⟨v'.rich, kv', by rw [unflattenR_rich, h1]; rfl, same_rich h2, h3⟩

theorem survives_erases {R : RType} {V : RVal} (h : Survives R V) : ∃ t v, Erases R V t v := by
  induction h with
  | @value t v plain holds full => exact ⟨t, v, value_erases plain holds full⟩
  | @pointer s x h ht hdur =>
    refine ⟨.scalar false s, .scalar x, rfl, h, rfl, ?_, fun _ => rfl, fun h => by simp [GVal.isStruct] at h, fun P _ _ => decodesR_pointer s x h ht P⟩
    intro S pre
    simp [flattenR, stringOf_pointer ht hdur, flatten]
  | @pointers s m h ht hdur =>
    refine ⟨.map s, .map m, rfl, h, rfl, ?_, ?_, fun h => by simp [GVal.isStruct] at h, ?_⟩
    · intro S pre
      rw [flattenR, flatten]
      exact flattenREntries_pointers ht hdur S pre m
    · intro hl
      cases hl with
      | map hk =>
        cases m with
        | nil => exact absurd rfl hk
        | cons e m => rfl
    · intro P hP _
      simp only [flatten, leaves]
      exact decodesR_pointers s m h P hP
  | @slice s xs h full ht hdur =>
    have hne : xs.isEmpty = false := by cases xs <;> simp_all
    refine ⟨.slice s, .seq xs, rfl, h, by simp [GVal.full, hne], ?_, fun _ => by simp [GVal.hasLeaf, hne], fun h => by simp [GVal.isStruct] at h, ?_⟩
    · intro S pre
      rw [flattenR, flatten]
      exact flattenRSeq_pointers ht hdur S pre xs 0
    · intro P hP _
      simp only [flatten, leaves]
      simp only [GType.holds, Bool.and_eq_true, decide_eq_true_eq, List.all_eq_true] at h
      exact decodesR_seq none s xs full h.1 (by simp) h.2 P hP
  | @array n s xs h full ht hdur =>
    have hne : xs.isEmpty = false := by cases xs <;> simp_all
    refine ⟨.array n s, .seq xs, rfl, h, by simp [GVal.full, hne], ?_, fun _ => by simp [GVal.hasLeaf, hne], fun h => by simp [GVal.isStruct] at h, ?_⟩
    · intro S pre
      rw [flattenR, flatten]
      exact flattenRSeq_pointers ht hdur S pre xs 0
    · intro P hP _
      simp only [flatten, leaves]
      simp only [GType.holds, Bool.and_eq_true, decide_eq_true_eq, List.all_eq_true] at h
      exact decodesR_seq (some n) s xs full h.1.1 (by simpa using h.1.2) h.2 P hP
  | @struct ns rs us names len apart fields leafy ih =>
    obtain ⟨ts, vs, h1, h2, h3, h4, h5, h6, h7, h8⟩ := erases_all rs us len ih leafy
    have hleaf := fun v hv => (fullAll_spec h5 v hv).2
    refine ⟨.struct ns ts, .struct vs, by simp [GType.plain, apart, h3, h1, names], by simpa [GType.holds] using h4,
      by simpa [GVal.full] using h5, fun S pre => by rw [flattenR, flatten]; exact h6 S ns pre names, ?_, fun _ => ⟨_, rfl⟩, ?_⟩
    · intro hl
      cases hl with
      | struct mem leaf => exact h7 ⟨_, mem, leaf⟩
    · intro P hP hl
      have g := good_type (.struct ns ts) P (.struct vs) hP (by simp [GType.plain, apart, h3, h1, names]) (by simpa [GType.holds] using h4)
        (by simpa [GVal.full] using h5) hl
      intro kv hs hin hfor
      simp only [flatten, leaves] at hin hfor ⊢
      refine structR_decodes ns rs us ts vs P names (by omega) (by omega) (by omega) apart h8 hleaf kv hs hin hfor (.inr ?_) ?_
      · have := g.leaf (hl rfl)
        rw [flatten] at this
        exact List.exists_mem_of_ne_nil _ this
      · intro e he
        exact clash_prefix (g.keys e (by rw [flatten]; exact he))

/-- The fields of a struct that survives. -/
theorem survives_fields {ns : List Bytes} {rs : List RType} {us : List RVal} (h : Survives (.struct ns rs) (.struct us)) :
    ns.length = rs.length ∧ rs.length = us.length ∧ namesApart ns = true ∧
    ∃ (ts : List GType) (vs : List GVal), ts.length = rs.length ∧ vs.length = us.length ∧ plainAll ts = true ∧ holdsAll ts vs = true ∧
      fullAll vs = true ∧ (∀ S : Texts, flattenRFields S ns rs [] us = some (flattenFields ns ts [] vs)) ∧
      ∀ (i : Nat) (R : RType) (V : RVal) (t : GType) (v : GVal), rs[i]? = some R → us[i]? = some V → ts[i]? = some t → vs[i]? = some v →
        Erases R V t v := by
  generalize hR : RType.struct ns rs = R at h
  generalize hV : RVal.struct us = V at h
  cases h with
  | @value t v plain holds full =>
    cases t with
    | struct ns' ts =>
      cases v with
      | struct vs =>
        simp only [GType.rich, RType.struct.injEq, GVal.rich, RVal.struct.injEq] at hR hV
        obtain ⟨rfl, rfl⟩ := hR
        subst hV
        simp only [GType.plain, Bool.and_eq_true, decide_eq_true_eq] at plain
        simp only [GType.holds] at holds
        simp only [GVal.full] at full
        obtain ⟨hlen, hhold⟩ := holdsAll_spec holds
        refine ⟨by simp [richTypes_eq_map, plain.1.1], by simp [richTypes_eq_map, richVals_eq_map, hlen], plain.1.2, ts, vs,
          by simp [richTypes_eq_map], by simp [richVals_eq_map], plain.2, holds, full, fun S => flattenRFields_rich S vs ns ts [], ?_⟩
        intro i R V t v h1 h2 h3 h4
        rw [richTypes_eq_map, List.getElem?_map, h3] at h1
        rw [richVals_eq_map, List.getElem?_map, h4] at h2
        cases h1
        cases h2
        exact value_erases (plainAll_spec plain.2 t (List.mem_of_getElem? h3)) (hhold i t v h3 h4) (fullAll_spec full v (List.mem_of_getElem? h4)).1
      | _ => simp [GType.holds] at holds
    | _ => simp [GType.rich] at hR
  | pointer => cases hR
  | pointers => cases hR
  | slice => cases hR
  | array => cases hR
  | struct names len apart fields leafy =>
    cases hR
    cases hV
    obtain ⟨ts, vs, h1, h2, h3, h4, h5, h6, -, h8⟩ := erases_all rs us len (fun i t v a b => survives_erases (fields i t v a b)) leafy
    exact ⟨names, len, apart, ts, vs, h1, h2, h3, h4, h5, fun S => h6 S ns [] names, h8⟩

/-- Reading an event whose fields survive, among other annotations. -/
theorem nested_event_reads (S : Texts) (E : RichEvent) (ns : List Bytes) (rs : List RType) (ht : E.type = .struct ns rs) (us : List RVal)
    (hs : Survives (.struct ns rs) (.struct us)) (hrec : ∀ n ∈ ns, ¬ schemaPrefix <+: n) (own : List Annotation)
    (hm : MarshalsR S E (.struct us) (some own)) (as : List Annotation) (hin : ∀ a ∈ own, a ∈ as)
    (hout : ∀ a ∈ as, a ∈ own ∨ ∀ n ∈ ns, clash n a.key = false) :
    ∃ v, unmarshalR E as = some (v, none) ∧ (RVal.struct us).Same v := by
  obtain ⟨hlr, hlu, hn, ts, vs, h1, h2, h3, h4, h5, h6, h8⟩ := survives_fields hs
  have hr : (GType.struct ns ts).isRecord = true := by
    simp only [GType.isRecord, List.all_eq_true, Bool.and_eq_true, decide_eq_true_eq, Bool.not_eq_true']
    intro n hnm
    refine ⟨(namesApart_spec hn).1 n hnm, ?_⟩
    rw [← Bool.not_eq_true, List.isPrefixOf_iff_prefix]
    exact hrec n hnm
  have hpl : (GType.struct ns ts).plain = true := by simp [GType.plain, hn, h3, h1, hlr]
  have hho : (GType.struct ns ts).holds (.struct vs) = true := by simpa [GType.holds] using h4
  have hfu : (GVal.struct vs).full = true := by simpa [GVal.full] using h5
  unfold MarshalsR at hm
  rw [ht, flattenR, h6 S] at hm
  obtain ⟨kvs, hperm, hown⟩ := hm
  cases hown
  obtain ⟨hsc, hpairs, hfor⟩ := among_pairs hr hpl hho hfu (schema := E.schema) (kvs := kvs) (by rw [flatten]; exact hperm) hin hout
  have hne : mapToKVs (stringMap as) ≠ [] := by
    have ha : schemaMarker E.schema ∈ as := hin _ (by simp)
    intro h0
    have hno : ∀ x, ((schemaMarker E.schema).key, x) ∉ mapToKVs (stringMap as) := by intro x; rw [h0]; simp
    cases hf : as.reverse.find? fun b => decide (b.key = (schemaMarker E.schema).key) with
    | none =>
      have := List.find?_eq_none.1 hf _ (List.mem_reverse.2 ha)
      simp at this
    | some b =>
      refine hno b.valueString ?_
      rw [mem_mapToKVs, stringMap_get, hf]
      rfl
  obtain ⟨v, kv', e1, e2, -⟩ := structR_decodes ns rs us ts vs [] hlr (by omega) (by omega) (by omega) hn h8
    (fun v hv => (fullAll_spec h5 v hv).2) (mapToKVs (stringMap as)) (mapToKVs_sorted as) (by rw [flatten] at hpairs; exact hpairs) (by
      intro e he
      rw [flatten] at hfor
      rcases hfor e he with h | h
      · exact .inl h
      · right
        intro p hp
        obtain ⟨n, hnm, hc⟩ := event_paths hr hpl hho hfu (p := p) (by rw [leaves]; exact hp)
        cases hpe : clash p e.1 with
        | false => rfl
        | true => rw [← clash_trans hc hpe]; exact h n hnm) (.inl ⟨rfl, hne⟩) (fun _ _ => rfl)
  refine ⟨v, ?_, e2⟩
  simp only [unmarshalR, hsc, Bool.true_eq_false, if_false, ht, e1, Option.map_some]

end Appdash
