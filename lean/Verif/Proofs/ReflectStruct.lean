import Verif.Proofs.ReflectDec

/-! # The decoder inverts the encoder: structs -/

namespace Appdash

/-! ## The loop over the fields -/

theorem fields_decode (pre : Bytes) (fl : Nat → List KV) (lv : Nat → List Bytes) (ws : List GVal)
    (L : List (Bytes × Nat × Unflatten))
    (hsep : L.Pairwise fun a b => a.1 < b.1 ∧ clash a.1 b.1 = false)
    (hpos : (L.map fun a => a.2.1).Nodup) (vs : List GVal) (hlen : vs.length = ws.length)
    (hL : ∀ a ∈ L, ∃ v0 v, vs[a.2.1]? = some v0 ∧ ws[a.2.1]? = some v ∧
      Decodes a.2.2 (nest pre a.1) v0 v (fl a.2.1) (lv a.2.1) ∧ ∀ e ∈ fl a.2.1, clash (nest pre a.1) e.1 = true)
    (kv : List KV) (hs : SortedKV kv) (hin : ∀ a ∈ L, ∀ e ∈ fl a.2.1, e ∈ kv)
    (hfor : ∀ e ∈ kv, ∀ a ∈ L, e ∈ fl a.2.1 ∨ ∀ p ∈ lv a.2.1, clash p e.1 = false) :
    ∃ vs' kv', unflattenFields pre L vs kv = some (vs', kv', false) ∧ vs'.length = ws.length ∧
      (∀ a ∈ L, ∃ v w, ws[a.2.1]? = some v ∧ vs'[a.2.1]? = some w ∧ v.Same w) ∧
      (∀ i : Nat, (∀ a ∈ L, a.2.1 ≠ i) → vs'[i]? = vs[i]?) ∧
      kv' <:+ kv ∧ ∀ e ∈ kv, (∀ a ∈ L, ∀ k ∈ fl a.2.1, k.1 < e.1) → e ∈ kv' := by
  induction L generalizing vs kv with
  | nil => exact ⟨vs, kv, rfl, hlen, by simp, fun _ _ => rfl, List.suffix_refl _, fun e he _ => he⟩
  | cons a L ih =>
    obtain ⟨name, i, f⟩ := a
    obtain ⟨v0, v, hv0, hv, hdec, hcl⟩ := hL _ (List.mem_cons_self ..)
    simp only at hv0 hv hdec hcl
    have hsep' := List.pairwise_cons.1 hsep
    rw [List.map_cons, List.nodup_cons] at hpos
    obtain ⟨v', kv1, h1, h2, h3, h4⟩ := hdec kv hs (hin _ (List.mem_cons_self ..))
      (fun e he => hfor e he _ (List.mem_cons_self ..))
    have hil : i < vs.length := (List.getElem?_eq_some_iff.1 hv0).1
    have hne : ∀ b ∈ L, b.2.1 ≠ i := by
      intro b hb he
      exact hpos.1 (List.mem_map.2 ⟨b, hb, he⟩)
    have hlt : ∀ b ∈ L, ∀ e ∈ fl b.2.1, ∀ k ∈ fl i, k.1 < e.1 := by
      intro b hb e he k hk
      have hb' := hsep'.1 b hb
      obtain ⟨_, _, _, _, _, hclb⟩ := hL b (List.mem_cons_of_mem _ hb)
      refine clash_sep ((nest_lt_nest pre _ _).2 hb'.1) ?_ (hcl k hk) (hclb e he)
      rw [nest_clash_nest]; exact hb'.2
    obtain ⟨vs', kv', r1, r2, r3, r4, r5, r6⟩ := ih hsep'.2 hpos.2 (vs.set i v') (by simpa using hlen)
      (by
        intro b hb
        obtain ⟨w0, w, hw0, hw, hd, hc⟩ := hL b (List.mem_cons_of_mem _ hb)
        refine ⟨w0, w, ?_, hw, hd, hc⟩
        rw [List.getElem?_set_ne (Ne.symm (hne b hb))]; exact hw0)
      kv1 (sorted_suffix h3 hs)
      (by
        intro b hb e he
        exact h4 e (hin b (List.mem_cons_of_mem _ hb) e he) fun k hk => hlt b hb e he k hk)
      (fun e he b hb => hfor e (h3.subset he) b (List.mem_cons_of_mem _ hb))
    refine ⟨vs', kv', ?_, r2, ?_, ?_, r5.trans h3, ?_⟩
    · simp only [unflattenFields, hv0, h1, Bool.false_eq_true, if_false]
      exact r1
    · intro b hb
      rcases List.mem_cons.1 hb with rfl | hb
      · refine ⟨v, v', hv, ?_, h2⟩
        simp only
        rw [r4 i hne, List.getElem?_set_self hil]
      · exact r3 b hb
    · intro j hj
      have hij : i ≠ j := hj _ (List.mem_cons_self ..)
      rw [r4 j fun b hb => hj b (List.mem_cons_of_mem _ hb), List.getElem?_set_ne hij]
    · intro e he hk
      exact r6 e (h4 e he (hk _ (List.mem_cons_self ..))) fun b hb => hk b (List.mem_cons_of_mem _ hb)

/-! ## Fields by position -/

theorem mem_flattenFields {ns : List Bytes} {ts : List GType} {pre : Bytes} {vs : List GVal} {e : KV} :
    e ∈ flattenFields ns ts pre vs ↔ ∃ (j : Nat) (n : Bytes) (t : GType) (v : GVal),
      ns[j]? = some n ∧ ts[j]? = some t ∧ vs[j]? = some v ∧ e ∈ flatten t (nest pre n) v := by
  induction ns generalizing ts vs with
  | nil => simp [flattenFields]
  | cons n ns ih =>
    cases ts with
    | nil => simp [flattenFields]
    | cons t ts =>
      cases vs with
      | nil => simp [flattenFields]
      | cons v vs =>
        simp only [flattenFields, List.mem_append, ih]
        constructor
        · rintro (h | ⟨j, n', t', v', h1, h2, h3, h4⟩)
          · exact ⟨0, n, t, v, rfl, rfl, rfl, h⟩
          · exact ⟨j + 1, n', t', v', h1, h2, h3, h4⟩
        · rintro ⟨j, n', t', v', h1, h2, h3, h4⟩
          cases j with
          | zero => simp at h1 h2 h3; subst h1 h2 h3; exact .inl h4
          | succ j => exact .inr ⟨j, n', t', v', by simpa using h1, by simpa using h2, by simpa using h3, h4⟩

theorem mem_leavesAll {ns : List Bytes} {ts : List GType} {pre : Bytes} {p : Bytes} :
    p ∈ leavesAll ns ts pre ↔ ∃ (j : Nat) (n : Bytes) (t : GType),
      ns[j]? = some n ∧ ts[j]? = some t ∧ p ∈ leaves t (nest pre n) := by
  induction ns generalizing ts with
  | nil => simp [leavesAll]
  | cons n ns ih =>
    cases ts with
    | nil => simp [leavesAll]
    | cons t ts =>
      simp only [leavesAll, List.mem_append, ih]
      constructor
      · rintro (h | ⟨j, n', t', h1, h2, h4⟩)
        · exact ⟨0, n, t, rfl, rfl, h⟩
        · exact ⟨j + 1, n', t', h1, h2, h4⟩
      · rintro ⟨j, n', t', h1, h2, h4⟩
        cases j with
        | zero => simp at h1 h2; subst h1 h2; exact .inl h4
        | succ j => exact .inr ⟨j, n', t', by simpa using h1, by simpa using h2, h4⟩

theorem mem_fieldFns {ns : List Bytes} {ts : List GType} {k : Nat} {a : Bytes × Nat × Unflatten} :
    a ∈ fieldFns ns ts k ↔ ∃ (j : Nat) (t : GType),
      ns[j]? = some a.1 ∧ ts[j]? = some t ∧ a.2.1 = k + j ∧ a.2.2 = unflatten t := by
  induction ns generalizing ts k with
  | nil => simp [fieldFns]
  | cons n ns ih =>
    cases ts with
    | nil => simp [fieldFns]
    | cons t ts =>
      simp only [fieldFns, List.mem_cons, ih]
      constructor
      · rintro (h | ⟨j, t', h1, h2, h3, h4⟩)
        · subst h; exact ⟨0, t, rfl, rfl, rfl, rfl⟩
        · exact ⟨j + 1, t', h1, h2, by omega, h4⟩
      · rintro ⟨j, t', h1, h2, h3, h4⟩
        cases j with
        | zero =>
          left
          simp at h1 h2 h3
          obtain ⟨x, y, z⟩ := a
          simp only at h1 h3 h4
          subst h1 h2 h3 h4; rfl
        | succ j => exact .inr ⟨j, t', by simpa using h1, by simpa using h2, by omega, h4⟩

theorem fieldFns_pos_nodup (ns : List Bytes) (ts : List GType) (k : Nat) :
    ((fieldFns ns ts k).map fun a => a.2.1).Nodup := by
  induction ns generalizing ts k with
  | nil => simp [fieldFns]
  | cons n ns ih =>
    cases ts with
    | nil => simp [fieldFns]
    | cons t ts =>
      simp only [fieldFns, List.map_cons, List.nodup_cons]
      refine ⟨?_, ih ts (k + 1)⟩
      intro h
      obtain ⟨b, hb, he⟩ := List.mem_map.1 h
      obtain ⟨j, _, _, _, h3, _⟩ := mem_fieldFns.1 hb
      omega

theorem fieldFns_names (ns : List Bytes) (ts : List GType) (h : ns.length = ts.length) (k : Nat) :
    (fieldFns ns ts k).map Prod.fst = ns := by
  induction ns generalizing ts k with
  | nil => simp [fieldFns]
  | cons n ns ih =>
    cases ts with
    | nil => simp at h
    | cons t ts => simp only [fieldFns, List.map_cons, ih ts (by simpa using h)]

theorem namesApart_spec {ns : List Bytes} (h : namesApart ns = true) :
    (∀ n ∈ ns, n ≠ []) ∧ ∀ (i j : Nat) (a b : Bytes), ns[i]? = some a → ns[j]? = some b → i ≠ j →
      clash a b = false := by
  induction ns with
  | nil => simp
  | cons n ns ih =>
    simp only [namesApart, Bool.and_eq_true, decide_eq_true_eq, List.all_eq_true, Bool.not_eq_true'] at h
    obtain ⟨⟨h1, h2⟩, h3⟩ := h
    obtain ⟨i1, i2⟩ := ih h3
    refine ⟨?_, ?_⟩
    · intro m hm
      rcases List.mem_cons.1 hm with rfl | hm
      · exact h1
      · exact i1 m hm
    · intro i j a b hi hj hij
      cases i with
      | zero =>
        cases j with
        | zero => exact absurd rfl hij
        | succ j =>
          simp at hi hj; subst hi
          exact (h2 b (List.mem_of_getElem? hj)).1
      | succ i =>
        cases j with
        | zero =>
          simp at hi hj; subst hj
          exact (h2 a (List.mem_of_getElem? hi)).2
        | succ j => exact i2 i j a b (by simpa using hi) (by simpa using hj) (by omega)

theorem namesApart_nodup {ns : List Bytes} (h : namesApart ns = true) : ns.Nodup := by
  induction ns with
  | nil => exact List.nodup_nil
  | cons n ns ih =>
    simp only [namesApart, Bool.and_eq_true, decide_eq_true_eq, List.all_eq_true, Bool.not_eq_true'] at h
    refine List.nodup_cons.2 ⟨?_, ih h.2⟩
    intro hm
    have := (h.1.2 n hm).1
    rw [clash_refl] at this
    exact absurd this (by decide)

theorem zeros_get (ts : List GType) (j : Nat) : (zeros ts)[j]? = (ts[j]?).map GType.zero := by
  induction ts generalizing j with
  | nil => simp [zeros]
  | cons t ts ih =>
    cases j with
    | zero => simp [zeros]
    | succ j => simp [zeros, ih]

theorem zeros_length (ts : List GType) : (zeros ts).length = ts.length := by
  induction ts with
  | nil => rfl
  | cons t ts ih => simp [zeros, ih]

theorem holdsAll_spec {ts : List GType} {vs : List GVal} (h : holdsAll ts vs = true) :
    ts.length = vs.length ∧ ∀ (j : Nat) (t : GType) (v : GVal), ts[j]? = some t → vs[j]? = some v → t.holds v = true := by
  induction ts generalizing vs with
  | nil => cases vs <;> simp_all [holdsAll]
  | cons t ts ih =>
    cases vs with
    | nil => simp [holdsAll] at h
    | cons v vs =>
      simp only [holdsAll, Bool.and_eq_true] at h
      obtain ⟨h1, h2⟩ := ih h.2
      refine ⟨by simp [h1], ?_⟩
      intro j t' v' ht hv
      cases j with
      | zero => simp at ht hv; subst ht hv; exact h.1
      | succ j => exact h2 j t' v' (by simpa using ht) (by simpa using hv)

theorem plainAll_spec {ts : List GType} (h : plainAll ts = true) : ∀ t ∈ ts, t.plain = true := by
  induction ts with
  | nil => simp
  | cons t ts ih =>
    simp only [plainAll, Bool.and_eq_true] at h
    intro t' ht
    rcases List.mem_cons.1 ht with rfl | ht
    · exact h.1
    · exact ih h.2 t' ht

theorem fullAll_spec {vs : List GVal} (h : fullAll vs = true) :
    ∀ v ∈ vs, v.full = true ∧ (v.isStruct = true → v.hasLeaf = true) := by
  induction vs with
  | nil => simp
  | cons v vs ih =>
    simp only [fullAll, Bool.and_eq_true, Bool.or_eq_true, Bool.not_eq_true'] at h
    intro v' hv
    rcases List.mem_cons.1 hv with rfl | hv
    · refine ⟨h.1.1, fun hs => ?_⟩
      rcases h.1.2 with h' | h'
      · rw [h'] at hs; exact absurd hs (by decide)
      · exact h'
    · exact ih h.2 v' hv

theorem anyLeaf_spec {vs : List GVal} (h : anyLeaf vs = true) : ∃ (j : Nat) (v : GVal), vs[j]? = some v ∧ v.hasLeaf = true := by
  induction vs with
  | nil => simp [anyLeaf] at h
  | cons v vs ih =>
    simp only [anyLeaf, Bool.or_eq_true] at h
    rcases h with h | h
    · exact ⟨0, v, rfl, h⟩
    · obtain ⟨j, v', h1, h2⟩ := ih h
      exact ⟨j + 1, v', by simpa using h1, h2⟩

/-! ## Structs -/

/-- What is proved of every type by induction. -/
structure Unflattens (t : GType) (P : Bytes) (v : GVal) : Prop where
  decodes : Decodes (unflatten t) P t.zero v (flatten t P v) (leaves t P)
  keys : ∀ e ∈ flatten t P v, clash P e.1 = true
  paths : ∀ p ∈ leaves t P, clash P p = true
  leaf : v.hasLeaf = true → flatten t P v ≠ []

theorem decodes_struct (ns : List Bytes) (ts : List GType) (vs : List GVal) (pre : Bytes)
    (hlen : ns.length = ts.length) (hn : namesApart ns = true) (hlv : ts.length = vs.length)
    (hg : ∀ (j : Nat) (n : Bytes) (t : GType) (v : GVal), ns[j]? = some n → ts[j]? = some t → vs[j]? = some v →
      Unflattens t (nest pre n) v)
    (hstart : pre = [] ∨ ∃ e, e ∈ flattenFields ns ts pre vs) (hpre : ∀ e ∈ flattenFields ns ts pre vs, pre.isPrefixOf e.1 = true) :
    Decodes (unflatten (.struct ns ts)) pre (GType.struct ns ts).zero (.struct vs) (flattenFields ns ts pre vs)
      (leavesAll ns ts pre) := by
  intro kv hs hin hfor
  obtain ⟨hne, hapart⟩ := namesApart_spec hn
  have htri : ∀ j : Nat, j < ns.length → ∃ n t v, ns[j]? = some n ∧ ts[j]? = some t ∧ vs[j]? = some v := by
    intro j hj
    exact ⟨_, _, _, List.getElem?_eq_getElem hj, List.getElem?_eq_getElem (by omega),
      List.getElem?_eq_getElem (show j < vs.length by omega)⟩
  -- the pairs and the paths of the field at a position
  let fl : Nat → List KV := fun j => match ns[j]?, ts[j]?, vs[j]? with
    | some n, some t, some v => flatten t (nest pre n) v
    | _, _, _ => []
  let lv : Nat → List Bytes := fun j => match ns[j]?, ts[j]? with
    | some n, some t => leaves t (nest pre n)
    | _, _ => []
  have hfl : ∀ (j : Nat) n t v, ns[j]? = some n → ts[j]? = some t → vs[j]? = some v →
      fl j = flatten t (nest pre n) v := by
    intro j n t v h1 h2 h3; simp only [fl, h1, h2, h3]
  have hlvv : ∀ (j : Nat) n t, ns[j]? = some n → ts[j]? = some t → lv j = leaves t (nest pre n) := by
    intro j n t h1 h2; simp only [lv, h1, h2]
  have hmem : ∀ a ∈ sortKV (fieldFns ns ts 0), ∃ (t : GType) (v : GVal), ns[a.2.1]? = some a.1 ∧ ts[a.2.1]? = some t ∧
      vs[a.2.1]? = some v ∧ a.2.2 = unflatten t := by
    intro a ha
    obtain ⟨j, t, h1, h2, h3, h4⟩ := mem_fieldFns.1 (mem_sortKV.1 ha)
    have : a.2.1 = j := by omega
    rw [this]
    exact ⟨t, _, h1, h2, List.getElem?_eq_getElem (show j < vs.length by
      have := (List.getElem?_eq_some_iff.1 h2).1; omega), h4⟩
  have hsorted : SortedKV (sortKV (fieldFns ns ts 0)) :=
    sorted_sortKV (by rw [fieldFns_names ns ts hlen]; exact namesApart_nodup hn)
  have hposnd : ((sortKV (fieldFns ns ts 0)).map fun a => a.2.1).Nodup :=
    ((perm_sortKV (fieldFns ns ts 0)).map _).nodup_iff.2 (fieldFns_pos_nodup ns ts 0)
  have hsep : (sortKV (fieldFns ns ts 0)).Pairwise fun a b => a.1 < b.1 ∧ clash a.1 b.1 = false := by
    refine List.Pairwise.imp_of_mem ?_ hsorted
    intro a b ha hb hlt
    refine ⟨hlt, ?_⟩
    obtain ⟨_, _, h1, _⟩ := hmem a ha
    obtain ⟨_, _, h2, _⟩ := hmem b hb
    refine hapart _ _ _ _ h1 h2 ?_
    intro he
    rw [he] at h1
    rw [h1] at h2
    rw [Option.some.inj h2] at hlt
    exact blt_irrefl _ hlt
  have hd : ∀ e ∈ flattenFields ns ts pre vs, e ∈ dropUntil pre kv := fun e he => mem_dropUntil (hin e he) (hpre e he)
  have hsuf := dropUntil_suffix pre kv
  have hsd := sorted_suffix hsuf hs
  have main := fields_decode pre fl lv vs (sortKV (fieldFns ns ts 0)) hsep hposnd (zeros ts)
    (by rw [zeros_length]; exact hlv)
    (by
      intro a ha
      obtain ⟨t, v, h1, h2, h3, h4⟩ := hmem a ha
      have g := hg _ _ _ _ h1 h2 h3
      refine ⟨t.zero, v, by rw [zeros_get, h2]; rfl, h3, ?_, ?_⟩
      · rw [hfl _ _ _ _ h1 h2 h3, hlvv _ _ _ h1 h2, h4]; exact g.decodes
      · rw [hfl _ _ _ _ h1 h2 h3]; exact g.keys)
    (dropUntil pre kv) hsd
    (by
      intro a ha e he
      obtain ⟨t, v, h1, h2, h3, h4⟩ := hmem a ha
      rw [hfl _ _ _ _ h1 h2 h3] at he
      exact hd e (mem_flattenFields.2 ⟨_, _, _, _, h1, h2, h3, he⟩))
    (by
      intro e he a ha
      obtain ⟨t, v, h1, h2, h3, h4⟩ := hmem a ha
      rw [hfl _ _ _ _ h1 h2 h3, hlvv _ _ _ h1 h2]
      have g := hg _ _ _ _ h1 h2 h3
      rcases hfor e (hsuf.subset he) with h | h
      · obtain ⟨j, n, t', v', k1, k2, k3, k4⟩ := mem_flattenFields.1 h
        by_cases hj : j = a.2.1
        · subst hj
          rw [h1] at k1; rw [h2] at k2; rw [h3] at k3
          cases Option.some.inj k1; cases Option.some.inj k2; cases Option.some.inj k3
          exact .inl k4
        · right
          intro p hp
          cases hc : clash p e.1 with
          | false => rfl
          | true =>
            exfalso
            have c1 := clash_trans (g.paths p hp) hc
            have c2 := (hg _ _ _ _ k1 k2 k3).keys e k4
            refine clash_disjoint ?_ ?_ c1 c2
            · rw [nest_clash_nest]; exact hapart _ _ _ _ h1 k1 (Ne.symm hj)
            · rw [nest_clash_nest]; exact hapart _ _ _ _ k1 h1 hj
      · right
        intro p hp
        exact h p (mem_leavesAll.2 ⟨_, _, _, h1, h2, hp⟩))
  obtain ⟨vs', kv', r1, r2, r3, r4, r5, r6⟩ := main
  have hsame : (GVal.struct vs).Same (.struct vs') := by
    refine .struct vs vs' r2.symm ?_
    intro j v w hv hw
    have hj : j < ns.length := by have := (List.getElem?_eq_some_iff.1 hv).1; omega
    obtain ⟨n, t, v1, h1, h2, h3⟩ := htri j hj
    have ha : (n, j, unflatten t) ∈ sortKV (fieldFns ns ts 0) :=
      mem_sortKV.2 (mem_fieldFns.2 ⟨j, t, h1, h2, by simp, rfl⟩)
    obtain ⟨v2, w2, q1, q2, q3⟩ := r3 _ ha
    simp only at q1 q2
    rw [hv] at q1; rw [hw] at q2
    cases Option.some.inj q1; cases Option.some.inj q2
    exact q3
  simp only [unflatten]
  cases hdu : dropUntil pre kv with
  | nil =>
    rw [hdu] at r1 r5 hd
    simp only
    rcases hstart with h | ⟨e, he⟩
    · subst h
      rw [dropUntil_nil_pre] at hdu
      subst hdu
      -- nothing to decode: the loop over the fields leaves the zero value
      have hz : unflattenFields [] (sortKV (fieldFns ns ts 0)) (zeros ts) [] = some (vs', kv', false) := r1
      refine ⟨_, [], rfl, ?_, List.suffix_refl _, by simp⟩
      have hkv' : kv' = [] := List.suffix_nil.1 r5
      subst hkv'
      have hzz : ∀ (L : List (Bytes × Nat × Unflatten)) (zs : List GVal),
          (∀ a ∈ L, ∀ P v, a.2.2 P v [] = some (v, [], false)) → unflattenFields [] L zs [] = some (zs, [], false) := by
        intro L
        induction L with
        | nil => intro zs _; rfl
        | cons b L ihL =>
          intro zs hb
          obtain ⟨nm, i, f⟩ := b
          simp only [unflattenFields]
          cases hz : zs[i]? with
          | none => exact ihL zs fun a ha => hb a (List.mem_cons_of_mem _ ha)
          | some z =>
            simp only
            rw [show f (nest [] nm) z [] = some (z, [], false) from hb _ (List.mem_cons_self ..) _ _]
            simp only [Bool.false_eq_true, if_false]
            have : zs.set i z = zs := by
              apply List.ext_getElem?
              intro j
              rw [List.getElem?_set]
              split
              · rename_i hij; subst hij
                rw [if_pos (List.getElem?_eq_some_iff.1 hz).1, hz]
              · rfl
            rw [this]
            exact ihL zs fun a ha => hb a (List.mem_cons_of_mem _ ha)
      have hnil : ∀ (t : GType) (P : Bytes) (v : GVal), unflatten t P v [] = some (v, [], false) := by
        intro t P v
        cases t <;> simp [unflatten, unflattenScalar, unflattenMap, unflattenSeq, dropUntil, mapLoop]
      have := hzz (sortKV (fieldFns ns ts 0)) (zeros ts) (by
        intro a ha P v
        obtain ⟨t, _, _, _, _, h4⟩ := hmem a ha
        rw [h4]; exact hnil t P v)
      rw [this] at hz
      have hvz : zeros ts = vs' := by
        have := Option.some.inj hz
        exact (Prod.mk.injEq .. ▸ this).1
      simp only [GType.zero]
      rw [hvz]; exact hsame
    · have := hd e he; simp at this
  | cons e0 rest =>
    rw [hdu] at r1 r5 hsuf r6
    simp only [GType.zero, GVal.fields, r1]
    refine ⟨_, kv', rfl, hsame, r5.trans hsuf, ?_⟩
    intro e he hk
    refine r6 e ?_ ?_
    · rcases hstart with h | ⟨k, hkm⟩
      · subst h
        rw [dropUntil_nil_pre] at hdu
        rw [← hdu]; exact he
      · have hkd := hd k hkm
        rw [hdu] at hkd
        exact mem_suffix_of_lt hs hsuf hkd he (hk k hkm)
    · intro a ha k hkk
      obtain ⟨t, v, h1, h2, h3, h4⟩ := hmem a ha
      rw [hfl _ _ _ _ h1 h2 h3] at hkk
      exact hk k (mem_flattenFields.2 ⟨_, _, _, _, h1, h2, h3, hkk⟩)

end Appdash
