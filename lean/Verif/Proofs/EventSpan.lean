import Verif.Proofs.Event
import Mathlib.Data.List.Forall2

/-! # Events among other annotations -/

namespace Appdash

/-! ## Schema markers -/

theorem clash_high {q n s : Bytes} (hq : ∀ c ∈ q, ¬ c ≤ 46) (h : clash n (q ++ s) = true) : q.isPrefixOf n = true := by
  induction q generalizing n with
  | nil => rfl
  | cons c q ih =>
    cases n with
    | nil =>
      simp only [List.cons_append, clash, decide_eq_true_eq] at h
      exact absurd h (hq c (List.mem_cons_self ..))
    | cons d n =>
      simp only [List.cons_append, clash, Bool.and_eq_true, decide_eq_true_eq] at h
      simp only [List.isPrefixOf, Bool.and_eq_true, beq_iff_eq]
      exact ⟨h.1.symm, ih (fun x hx => hq x (List.mem_cons_of_mem _ hx)) h.2⟩

theorem isRecord_name {t : GType} (h : t.isRecord = true) {n : Bytes} (hn : n ∈ t.names) :
    n ≠ [] ∧ schemaPrefix.isPrefixOf n = false := by
  cases t with
  | struct ns ts =>
    simp only [GType.isRecord, List.all_eq_true, Bool.and_eq_true, decide_eq_true_eq, Bool.not_eq_true'] at h
    exact h n hn
  | _ => simp [GType.names] at hn

theorem marker_no_clash {t : GType} (h : t.isRecord = true) {n : Bytes} (hn : n ∈ t.names) (s : Bytes) :
    clash n (schemaPrefix ++ s) = false := by
  cases hc : clash n (schemaPrefix ++ s) with
  | false => rfl
  | true =>
    have := clash_high (by decide) hc
    rw [(isRecord_name h hn).2] at this
    exact absurd this (by decide)

theorem schemaPrefix_drop {k : Bytes} (h : schemaPrefix.isPrefixOf k = true) :
    k = schemaPrefix ++ k.drop schemaPrefix.length := by
  obtain ⟨r, rfl⟩ := isPrefixOf_append.1 h
  rw [List.drop_left]

theorem mem_schemas {as : List Annotation} {s : Bytes} : s ∈ schemas as ↔ ∃ a ∈ as, a.key = schemaPrefix ++ s := by
  induction as with
  | nil => simp [schemas]
  | cons a as ih =>
    simp only [schemas]
    split
    · rename_i h
      have hk := schemaPrefix_drop h
      simp only [List.mem_cons, ih]
      constructor
      · rintro (h | ⟨b, hb, he⟩)
        · exact ⟨a, .inl rfl, by rw [h]; exact hk⟩
        · exact ⟨b, .inr hb, he⟩
      · rintro ⟨b, rfl | hb, he⟩
        · left; rw [he, List.drop_left]
        · exact .inr ⟨b, hb, he⟩
    · rename_i h
      rw [ih]
      constructor
      · rintro ⟨b, hb, he⟩; exact ⟨b, List.mem_cons_of_mem _ hb, he⟩
      · rintro ⟨b, hb, he⟩
        rcases List.mem_cons.1 hb with rfl | hb
        · exact absurd (isPrefixOf_append.2 ⟨s, he⟩) h
        · exact ⟨b, hb, he⟩

theorem schemas_append (as bs : List Annotation) : schemas (as ++ bs) = schemas as ++ schemas bs := by
  induction as with
  | nil => rfl
  | cons a as ih =>
    simp only [List.cons_append, schemas]
    split <;> simp [ih]

theorem schemas_marker (s : Bytes) : schemas [schemaMarker s] = [s] := by
  have : schemaPrefix.isPrefixOf (schemaPrefix ++ s) = true := isPrefixOf_append.2 ⟨s, rfl⟩
  simp only [schemas, schemaMarker, this, if_true, List.drop_left]

theorem schemas_none {as : List Annotation} (h : ∀ a ∈ as, schemaPrefix.isPrefixOf a.key = false) : schemas as = [] := by
  induction as with
  | nil => rfl
  | cons a as ih =>
    simp only [schemas, h a (List.mem_cons_self ..), Bool.false_eq_true, if_false]
    exact ih fun b hb => h b (List.mem_cons_of_mem _ hb)

/-! ## The keys of any event -/

mutual

theorem flatten_clash : ∀ (t : GType) (P : Bytes) (v : GVal), P ≠ [] → ∀ e ∈ flatten t P v, clash P e.1 = true
  | .scalar _ _, P, v, hP, e, he => by
    cases v <;> simp [flatten] at he
    subst he; exact clash_refl P
  | .map _, P, v, hP, e, he => by
    cases v <;> simp [flatten] at he
    obtain ⟨f, _, rfl⟩ := List.mem_map.1 he
    exact clash_nest hP _
  | .slice _, P, v, hP, e, he => by
    cases v <;> simp [flatten] at he
    obtain ⟨j, x, _, rfl⟩ := mem_flattenSeq.1 he
    exact clash_nest hP _
  | .array _ _, P, v, hP, e, he => by
    cases v <;> simp [flatten] at he
    obtain ⟨j, x, _, rfl⟩ := mem_flattenSeq.1 he
    exact clash_nest hP _
  | .struct ns ts, P, v, hP, e, he => by
    cases v <;> simp [flatten] at he
    exact flattenFields_clash ts ns P _ hP e he

theorem flattenFields_clash : ∀ (ts : List GType) (ns : List Bytes) (P : Bytes) (vs : List GVal), P ≠ [] →
    ∀ e ∈ flattenFields ns ts P vs, clash P e.1 = true
  | [], ns, P, vs, hP, e, he => by cases ns <;> simp [flattenFields] at he
  | t :: ts, [], P, vs, hP, e, he => by simp [flattenFields] at he
  | t :: ts, n :: ns, P, [], hP, e, he => by simp [flattenFields] at he
  | t :: ts, n :: ns, P, v :: vs, hP, e, he => by
    simp only [flattenFields, List.mem_append] at he
    rcases he with he | he
    · refine clash_trans (clash_nest hP n) (flatten_clash t (nest P n) v ?_ e he)
      simp only [nest, hP, if_false]; simp
    · exact flattenFields_clash ts ns P vs hP e he

end

theorem event_clash {t : GType} {v : GVal} (hr : t.isRecord = true) {e : KV} (he : e ∈ flatten t [] v) :
    ∃ n ∈ t.names, clash n e.1 = true := by
  cases t with
  | struct ns ts =>
    cases v with
    | struct vs =>
      simp only [flatten] at he
      obtain ⟨j, n, t, v, h1, h2, h3, h4⟩ := mem_flattenFields.1 he
      have hm := List.mem_of_getElem? h1
      exact ⟨n, hm, flatten_clash t (nest [] n) v (isRecord_name hr hm).1 e h4⟩
    | _ => simp [flatten] at he
  | _ => simp [GType.isRecord] at hr

theorem event_no_marker {t : GType} {v : GVal} (hr : t.isRecord = true) {e : KV} (he : e ∈ flatten t [] v) :
    schemaPrefix.isPrefixOf e.1 = false := by
  obtain ⟨n, hn, hc⟩ := event_clash hr he
  cases hp : schemaPrefix.isPrefixOf e.1 with
  | false => rfl
  | true =>
    obtain ⟨r, hr'⟩ := isPrefixOf_append.1 hp
    rw [hr', marker_no_clash hr hn] at hc
    exact absurd hc (by decide)

/-- What `MarshalEvent` returns for an event without methods of its own. -/
theorem marshals_ok {E : EventType} {v : GVal} {as : List Annotation} (hE : E.marshaler = none)
    (hm : Marshals E v (.ok as)) :
    ∃ kvs : List KV, kvs.Perm (flatten E.type [] v) ∧ as = kvs.map annotationOf ++ [schemaMarker E.schema] := by
  simp only [Marshals, hE, Except.ok.injEq] at hm
  exact hm

theorem marshals_schemas {E : EventType} {v : GVal} {as : List Annotation} (hE : E.marshaler = none)
    (hr : E.type.isRecord = true) (hm : Marshals E v (.ok as)) : schemas as = [E.schema] := by
  obtain ⟨kvs, hp, rfl⟩ := marshals_ok hE hm
  rw [schemas_append, schemas_marker, schemas_none, List.nil_append]
  intro a ha
  obtain ⟨e, he, rfl⟩ := List.mem_map.1 ha
  exact event_no_marker hr (hp.mem_iff.1 he)

/-! ## One event among other annotations -/

/-- The pairs that an event is read from, if its annotations are among others. -/
theorem among_pairs {t : GType} {v : GVal} (hr : t.isRecord = true) (hpl : t.plain = true) (hho : t.holds v = true) (hfu : v.full = true)
    {schema : Bytes} {kvs : List KV} (hperm : kvs.Perm (flatten t [] v)) {as : List Annotation}
    (hin : ∀ a ∈ kvs.map annotationOf ++ [schemaMarker schema], a ∈ as)
    (hout : ∀ a ∈ as, a ∈ kvs.map annotationOf ++ [schemaMarker schema] ∨ ∀ n ∈ t.names, clash n a.key = false) :
    (schemas as).contains schema = true ∧ (∀ e ∈ flatten t [] v, e ∈ mapToKVs (stringMap as)) ∧
      ∀ e ∈ mapToKVs (stringMap as), e ∈ flatten t [] v ∨ ∀ n ∈ t.names, clash n e.1 = false := by
  have hs : (schemas as).contains schema = true := by
    rw [List.contains_iff_mem, mem_schemas]
    exact ⟨schemaMarker schema, hin _ (by simp), rfl⟩
  have hnd : (kvs.map Prod.fst).Nodup :=
    ((hperm.map Prod.fst).nodup_iff).2 (event_nodup hr hpl hho hfu)
  -- an annotation whose key clashes with a field name is one of the event's pairs
  have hkey : ∀ a ∈ as, (∃ n ∈ t.names, clash n a.key = true) → ∃ e ∈ kvs, a = annotationOf e := by
    intro a ha ⟨n, hn, hcl⟩
    rcases hout a ha with h | h
    · rcases List.mem_append.1 h with h | h
      · obtain ⟨e, he, rfl⟩ := List.mem_map.1 h
        exact ⟨e, he, rfl⟩
      · rw [List.mem_singleton] at h
        subst h
        rw [show (schemaMarker schema).key = schemaPrefix ++ schema from rfl, marker_no_clash hr hn] at hcl
        exact absurd hcl (by decide)
    · rw [h n hn] at hcl; exact absurd hcl (by decide)
  have hpairs : ∀ e ∈ flatten t [] v, e ∈ mapToKVs (stringMap as) := by
    intro e he
    have hek : e ∈ kvs := hperm.mem_iff.2 he
    have ha : annotationOf e ∈ as := hin _ (List.mem_append_left _ (List.mem_map.2 ⟨e, hek, rfl⟩))
    have := annotation_mapToKVs ha (by
      intro b hb hbk
      obtain ⟨f, hf, rfl⟩ := hkey b hb (by rw [hbk]; exact event_clash hr he)
      have : f = e := by
        have hbk' : f.1 = e.1 := hbk
        exact AMap.get_of_mem (m := kvs) hnd hf |>.symm.trans (hbk' ▸ AMap.get_of_mem (m := kvs) hnd hek)
          |> fun h => Prod.ext hbk' (Option.some.inj h)
      rw [this])
    exact this
  refine ⟨hs, hpairs, ?_⟩
  intro e he
  obtain ⟨a, ha, hak, hav⟩ := mapToKVs_annotation he
  by_cases hcl : ∃ n ∈ t.names, clash n e.1 = true
  · left
    obtain ⟨f, hf, rfl⟩ := hkey a ha (by rw [hak]; exact hcl)
    have : f = e := Prod.ext hak hav
    rw [← this]; exact hperm.mem_iff.1 hf
  · right
    intro n hn
    cases hb : clash n e.1 with
    | false => rfl
    | true => exact absurd ⟨n, hn, hb⟩ hcl

theorem unmarshal_among {E : EventType} {v : GVal} (hc : Conforms E v) {own as : List Annotation}
    (hm : Marshals E v (.ok own)) (hin : ∀ a ∈ own, a ∈ as)
    (hout : ∀ a ∈ as, a ∈ own ∨ ∀ n ∈ E.type.names, clash n a.key = false) :
    ∃ v', unmarshalEvent E as E.type.zero = some (v', none) ∧ v.Same v' := by
  obtain ⟨kvs, hperm, rfl⟩ := marshals_ok hc.reflective.1 hm
  obtain ⟨hs, hpairs, hfor⟩ := among_pairs hc.record hc.plain hc.holds hc.full hperm hin hout
  obtain ⟨v', kv', h1, h2⟩ := event_decodes hc.record hc.plain hc.holds hc.full (mapToKVs (stringMap as))
    (mapToKVs_sorted as) hpairs hfor
  refine ⟨v', ?_, h2⟩
  simp only [unmarshalEvent, hs, Bool.true_eq_false, if_false, hc.reflective.2, h1]

theorem unmarshal_own {E : EventType} {v : GVal} (hc : Conforms E v) {as : List Annotation}
    (hm : Marshals E v (.ok as)) : ∃ v', unmarshalEvent E as E.type.zero = some (v', none) ∧ v.Same v' :=
  unmarshal_among hc hm (fun _ h => h) fun _ h => .inl h

/-! ## Several events -/

theorem unmarshalLoop_spec (reg : Registry) (as : List Annotation) (ps : Pieces) (acc : List (Bytes × GVal))
    (h1 : ∀ p ∈ ps, ∀ E v, p.1 = some (E, v) → schemas p.2 = [E.schema] ∧ AMap.get reg E.schema = some E ∧
      ∃ v', unmarshalEvent E as E.type.zero = some (v', none) ∧ v.Same v')
    (h2 : ∀ p ∈ ps, p.1 = none → ∀ s ∈ schemas p.2, AMap.get reg s = none) :
    ∃ out, unmarshalLoop reg as (schemas ps.all) acc = some (acc ++ out, none) ∧
      List.Forall₂ (fun e o => o.1 = e.1.schema ∧ e.2.Same o.2) ps.events out := by
  induction ps generalizing acc with
  | nil => exact ⟨[], by simp [Pieces.all, schemas, unmarshalLoop], List.Forall₂.nil⟩
  | cons p ps ih =>
    have h1' := fun q (hq : q ∈ ps) => h1 q (List.mem_cons_of_mem _ hq)
    have h2' := fun q (hq : q ∈ ps) => h2 q (List.mem_cons_of_mem _ hq)
    have hall : Pieces.all (p :: ps) = p.2 ++ Pieces.all ps := rfl
    rw [hall, schemas_append]
    obtain ⟨o, own⟩ := p
    cases o with
    | none =>
      have hskip : ∀ (ss rest : List Bytes), (∀ s ∈ ss, AMap.get reg s = none) →
          unmarshalLoop reg as (ss ++ rest) acc = unmarshalLoop reg as rest acc := by
        intro ss
        induction ss with
        | nil => intro rest _; rfl
        | cons s ss ihs =>
          intro rest h
          simp only [List.cons_append, unmarshalLoop, h s (List.mem_cons_self ..)]
          exact ihs rest fun s' hs' => h s' (List.mem_cons_of_mem _ hs')
      rw [hskip _ _ (h2 _ (List.mem_cons_self ..) rfl)]
      obtain ⟨out, r1, r2⟩ := ih acc h1' h2'
      exact ⟨out, r1, r2⟩
    | some ev =>
      obtain ⟨E, v⟩ := ev
      obtain ⟨hs, hreg, v', hu, hsame⟩ := h1 _ (List.mem_cons_self ..) E v rfl
      simp only at hs
      rw [hs]
      simp only [List.cons_append, List.nil_append, unmarshalLoop, hreg, hu]
      obtain ⟨out, r1, r2⟩ := ih (acc ++ [(E.schema, v')]) h1' h2'
      refine ⟨(E.schema, v') :: out, ?_, ?_⟩
      · rw [r1, List.append_assoc]; rfl
      · exact List.Forall₂.cons ⟨rfl, hsame⟩ r2

theorem pieces_unmarshal (reg : Registry) (ps : Pieces) (h : ps.Recorded reg) :
    ∃ out, unmarshalEvents reg ps.all = some (out, none) ∧
      List.Forall₂ (fun e o => o.1 = e.1.schema ∧ e.2.Same o.2) ps.events out := by
  have hmem : ∀ p ∈ ps, ∀ E v, p.1 = some (E, v) → (E, v) ∈ ps.events := by
    intro p hp E v hpe
    exact List.mem_filterMap.2 ⟨p, hp, hpe⟩
  have main := unmarshalLoop_spec reg ps.all ps [] ?_ ?_
  · obtain ⟨out, r1, r2⟩ := main
    exact ⟨out, by simpa [unmarshalEvents] using r1, r2⟩
  · intro p hp E v hpe
    have hm := h.marshalled p hp E v hpe
    have hc := h.conforms _ (hmem p hp E v hpe)
    simp only at hc
    refine ⟨marshals_schemas hc.reflective.1 hc.record hm, h.registered _ (hmem p hp E v hpe), ?_⟩
    refine unmarshal_among hc hm (fun a ha => List.mem_flatMap.2 ⟨p, hp, ha⟩) ?_
    intro a ha
    obtain ⟨q, hq, haq⟩ := List.mem_flatMap.1 ha
    -- split the pieces around `p` and `q`
    by_cases hqp : q = p
    · subst hqp; exact .inl haq
    · right
      intro n hn
      cases hqe : q.1 with
      | none => exact h.others q hq hqe a haq _ (hmem p hp E v hpe) n hn
      | some ev =>
        obtain ⟨F, w⟩ := ev
        have hcF := h.conforms _ (hmem q hq F w hqe)
        simp only at hcF
        have hap : E.apart F := by
          -- the two events are at different positions
          obtain ⟨i, hi⟩ := List.getElem?_of_mem hp
          obtain ⟨j, hj⟩ := List.getElem?_of_mem hq
          have hij : i ≠ j := by
            intro he; subst he; rw [hi] at hj; exact hqp (Option.some.inj hj).symm
          have hsplit : ∀ (l : Pieces) (i j : Nat) (p q : Option (EventType × GVal) × List Annotation) (x y : EventType × GVal),
              i < j → l[i]? = some p → l[j]? = some q → p.1 = some x → q.1 = some y →
              (l.filterMap Prod.fst).Pairwise (fun e f => e.1.apart f.1) → x.1.apart y.1 := by
            intro l
            induction l with
            | nil => intro i j p q x y _ hi; simp at hi
            | cons c l ihl =>
              intro i j p q x y hlt hi hj hpx hqy hpw
              obtain ⟨j', rfl⟩ : ∃ j', j = j' + 1 := ⟨j - 1, by omega⟩
              simp only [List.getElem?_cons_succ] at hj
              cases i with
              | zero =>
                simp at hi; subst hi
                rw [List.filterMap_cons, hpx] at hpw
                exact (List.pairwise_cons.1 hpw).1 y (List.mem_filterMap.2 ⟨q, List.mem_of_getElem? hj, hqy⟩)
              | succ i =>
                simp only [List.getElem?_cons_succ] at hi
                refine ihl i j' p q x y (by omega) hi hj hpx hqy ?_
                rw [List.filterMap_cons] at hpw
                cases hc1 : c.1 with
                | none => rw [hc1] at hpw; exact hpw
                | some z => rw [hc1] at hpw; exact (List.pairwise_cons.1 hpw).2
          rcases Nat.lt_or_gt_of_ne hij with hlt | hlt
          · exact hsplit ps i j p q (E, v) (F, w) hlt hi hj hpe hqe h.apart
          · have := hsplit ps j i q p (F, w) (E, v) hlt hj hi hqe hpe h.apart
            intro n hn m hm
            have := this m hm n hn
            exact ⟨this.2, this.1⟩
        cases hcl : clash n a.key with
        | false => rfl
        | true =>
          exfalso
          obtain ⟨kvs, hperm, hown⟩ := marshals_ok hcF.reflective.1 (h.marshalled q hq F w hqe)
          rw [hown] at haq
          rcases List.mem_append.1 haq with haq | haq
          · obtain ⟨e, he, rfl⟩ := List.mem_map.1 haq
            obtain ⟨m, hm2, hcm⟩ := event_clash hcF.record (hperm.mem_iff.1 he)
            have := hap n hn m hm2
            exact clash_disjoint this.1 this.2 hcl hcm
          · rw [List.mem_singleton] at haq
            subst haq
            rw [show (schemaMarker F.schema).key = schemaPrefix ++ F.schema from rfl, marker_no_clash hc.record hn] at hcl
            exact absurd hcl (by decide)
  · intro p hp hpn s hs
    obtain ⟨a, ha, hak⟩ := mem_schemas.1 hs
    exact h.unregistered p hp hpn a ha s hak

end Appdash
