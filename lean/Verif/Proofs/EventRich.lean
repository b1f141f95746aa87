import Verif.Spec.EventRich
import Verif.Proofs.ReflectStruct

/-! # Lemmas about recording and reading events of any type -/

namespace Appdash

/-! ## When recording panics -/

theorem ifaceText_none (S : Texts) (t : RType) (v : RVal) :
    ifaceText S t v = none ↔ ∃ u, t = .ptr u ∧ v = .nil ∧ u.hasString = true := by
  unfold ifaceText
  split
  · split <;> simp
  · simp
  · rename_i u
    cases h : u.hasString <;> simp [h]
  · simp
  · rename_i h1 h2
    simp only [false_iff, reduceCtorEq]
    rintro ⟨u, rfl, rfl, -⟩
    exact h1 u rfl rfl

theorem stringOf_plain {S : Texts} {t : RType} {v : RVal} (h : t.hasString = false) : stringOf S t v = none := by
  unfold stringOf
  split <;> first | rfl | simp [RType.hasString] at h

theorem stringOf_none {S : Texts} {t : RType} {v : RVal} (h : stringOf S t v = none) :
    t.hasString = false ∨ ∃ d s, t = .scalar d s := by
  unfold stringOf at h
  split at h
  · cases h
  · cases h
  · cases h
  · unfold RType.hasString
    split
    · exact .inr ⟨_, _, rfl⟩
    · exact .inr ⟨_, _, rfl⟩
    · rename_i h1 h2 h3 n t
      exact absurd rfl (h3 _ _)
    · exact .inl rfl

theorem flattenR_scalar_ne (S : Texts) (d : Bool) (s : ScalarTy) (pre : Bytes) (v : RVal) : flattenR S (.scalar d s) pre v ≠ none := by
  cases v <;> simp [flattenR]

mutual

theorem flattenR_none (S : Texts) : ∀ (v : RVal) (t : RType) (pre : Bytes), flattenR S t pre v = none ↔ NilInside t v
  | .scalar x, t, pre => by
    constructor
    · intro h; cases t <;> simp [flattenR] at h
    · intro h; cases h
  | .nil, t, pre => by
    constructor
    · intro h
      cases t with
      | ptr t => exact .here t
      | _ => simp [flattenR] at h
    · intro h; cases h; simp [flattenR]
  | .ptr v, t, pre => by
    constructor
    · intro h
      cases t with
      | ptr t =>
        simp only [flattenR] at h
        split at h
        · cases h
        · rename_i hs
          rcases stringOf_none hs with hp | ⟨d, s, rfl⟩
          · exact .deref t v hp ((flattenR_none S v t pre).1 h)
          · exact absurd h (flattenR_scalar_ne S d s pre v)
      | _ => simp [flattenR] at h
    · intro h
      cases h with
      | deref t v hp hi => simp only [flattenR, stringOf_plain hp]; exact (flattenR_none S v t pre).2 hi
  | .iface dyn v, t, pre => by
    constructor
    · intro h
      cases t with
      | iface =>
        simp only [flattenR, Option.map_eq_none_iff] at h
        obtain ⟨u, rfl, rfl, hu⟩ := (ifaceText_none S dyn v).1 h
        exact .held u hu
      | _ => simp [flattenR] at h
    · intro h
      cases h with
      | held t hs => simp [flattenR, ifaceText, hs]
  | .opaque id, t, pre => by
    constructor
    · intro h; cases t <;> simp [flattenR] at h
    · intro h; cases h
  | .struct vs, t, pre => by
    constructor
    · intro h
      cases t with
      | struct ns ts =>
        simp only [flattenR] at h
        obtain ⟨i, n, t, v, h1, h2, h3, h4⟩ := (flattenRFields_none S vs ns ts pre).1 h
        exact .field i h1 h2 h3 h4
      | _ => simp [flattenR] at h
    · intro h
      cases h with
      | field i h1 h2 h3 h4 => simp only [flattenR]; exact (flattenRFields_none S vs _ _ pre).2 ⟨i, _, _, _, h1, h2, h3, h4⟩
  | .map ks vs, t, pre => by
    constructor
    · intro h
      cases t with
      | map sk e =>
        simp only [flattenR] at h
        obtain ⟨i, k, v, h1, h2, h3⟩ := (flattenREntries_none S vs ks e pre).1 h
        exact .entry sk i h1 h2 h3
      | _ => simp [flattenR] at h
    · intro h
      cases h with
      | entry sk i h1 h2 h3 => simp only [flattenR]; exact (flattenREntries_none S vs ks _ pre).2 ⟨i, _, _, h1, h2, h3⟩
  | .seq vs, t, pre => by
    constructor
    · intro h
      cases t with
      | slice e =>
        simp only [flattenR] at h
        obtain ⟨v, h1, h2⟩ := (flattenRSeq_none S vs e pre 0).1 h
        exact .element h1 h2
      | array n e =>
        simp only [flattenR] at h
        obtain ⟨v, h1, h2⟩ := (flattenRSeq_none S vs e pre 0).1 h
        exact .component n h1 h2
      | _ => simp [flattenR] at h
    · intro h
      cases h with
      | element h1 h2 => simp only [flattenR]; exact (flattenRSeq_none S vs _ pre 0).2 ⟨_, h1, h2⟩
      | component n h1 h2 => simp only [flattenR]; exact (flattenRSeq_none S vs _ pre 0).2 ⟨_, h1, h2⟩

theorem flattenRFields_none (S : Texts) : ∀ (vs : List RVal) (ns : List Bytes) (ts : List RType) (pre : Bytes),
    flattenRFields S ns ts pre vs = none ↔ ∃ (i : Nat) (n : Bytes) (t : RType) (v : RVal), ns[i]? = some n ∧ ts[i]? = some t ∧ vs[i]? = some v ∧ NilInside t v
  | [], ns, ts, pre => by
    cases ns <;> cases ts <;> simp [flattenRFields]
  | v :: vs, ns, ts, pre => by
    cases ns with
    | nil => simp [flattenRFields]
    | cons n ns =>
      cases ts with
      | nil => simp [flattenRFields]
      | cons t ts =>
        have h1 := flattenR_none S v t (nest pre n)
        have h2 := flattenRFields_none S vs ns ts pre
        have h3 : flattenRFields S (n :: ns) (t :: ts) pre (v :: vs) = none ↔
            flattenR S t (nest pre n) v = none ∨ flattenRFields S ns ts pre vs = none := by
          rw [flattenRFields]
          cases flattenR S t (nest pre n) v <;> cases flattenRFields S ns ts pre vs <;> simp
        rw [h3, h1, h2]
        constructor
        · rintro (h | ⟨i, h⟩)
          · exact ⟨0, n, t, v, rfl, rfl, rfl, h⟩
          · exact ⟨i + 1, h⟩
        · rintro ⟨i, n', t', v', q1, q2, q3, q4⟩
          cases i with
          | zero => cases q1; cases q2; cases q3; exact .inl q4
          | succ i => exact .inr ⟨i, n', t', v', q1, q2, q3, q4⟩

theorem flattenREntries_none (S : Texts) : ∀ (vs : List RVal) (ks : List Bytes) (e : RType) (pre : Bytes),
    flattenREntries S e pre ks vs = none ↔ ∃ (i : Nat) (k : Bytes) (v : RVal), ks[i]? = some k ∧ vs[i]? = some v ∧ NilInside e v
  | [], ks, e, pre => by
    cases ks <;> simp [flattenREntries]
  | v :: vs, ks, e, pre => by
    cases ks with
    | nil => simp [flattenREntries]
    | cons k ks =>
      have h1 := flattenR_none S v e (nest pre k)
      have h2 := flattenREntries_none S vs ks e pre
      have h3 : flattenREntries S e pre (k :: ks) (v :: vs) = none ↔
          flattenR S e (nest pre k) v = none ∨ flattenREntries S e pre ks vs = none := by
        rw [flattenREntries]
        cases flattenR S e (nest pre k) v <;> cases flattenREntries S e pre ks vs <;> simp
      rw [h3, h1, h2]
      constructor
      · rintro (h | ⟨i, h⟩)
        · exact ⟨0, k, v, rfl, rfl, h⟩
        · exact ⟨i + 1, h⟩
      · rintro ⟨i, k', v', q1, q2, q3⟩
        cases i with
        | zero => cases q1; cases q2; exact .inl q3
        | succ i => exact .inr ⟨i, k', v', q1, q2, q3⟩

theorem flattenRSeq_none (S : Texts) : ∀ (vs : List RVal) (e : RType) (pre : Bytes) (i : Nat),
    flattenRSeq S e pre i vs = none ↔ ∃ v ∈ vs, NilInside e v
  | [], e, pre, i => by simp [flattenRSeq]
  | v :: vs, e, pre, i => by
    have h1 := flattenR_none S v e (nest pre (formatInt i))
    have h2 := flattenRSeq_none S vs e pre (i + 1)
    have h3 : flattenRSeq S e pre i (v :: vs) = none ↔
        flattenR S e (nest pre (formatInt i)) v = none ∨ flattenRSeq S e pre (i + 1) vs = none := by
      rw [flattenRSeq]
      cases flattenR S e (nest pre (formatInt i)) v <;> cases flattenRSeq S e pre (i + 1) vs <;> simp
    rw [h3, h1, h2]
    simp

end

/-! ## Agreement with `Verif.Model.Reflect` -/

theorem flattenRSeq_scalars (S : Texts) (d : Bool) (s : ScalarTy) (pre : Bytes) : ∀ (xs : List Scalar) (i : Nat),
    flattenRSeq S (.scalar d s) pre i (xs.map .scalar) = some (flattenSeq pre i xs)
  | [], i => rfl
  | x :: xs, i => by simp [flattenRSeq, flattenR, flattenSeq, flattenRSeq_scalars S d s pre xs (i + 1)]

theorem flattenREntries_scalars (S : Texts) (d : Bool) (s : ScalarTy) (pre : Bytes) : ∀ (m : AMap Bytes Scalar),
    flattenREntries S (.scalar d s) pre m.keys (m.map fun e => .scalar e.2) = some (flattenMap pre m)
  | [] => rfl
  | e :: m => by
    have := flattenREntries_scalars S d s pre m
    simp only [AMap.keys, List.map_cons, flattenREntries, flattenR, flattenMap] at this ⊢
    rw [this]
    rfl

mutual

theorem flattenR_rich (S : Texts) : ∀ (v : GVal) (t : GType) (pre : Bytes), flattenR S t.rich pre v.rich = some (flatten t pre v)
  | .scalar x, t, pre => by cases t <;> simp [GType.rich, GVal.rich, flattenR, flatten]
  | .struct vs, t, pre => by
    cases t with
    | struct ns ts =>
      simp only [GType.rich, GVal.rich, flattenR, flatten]
      exact flattenRFields_rich S vs ns ts pre
    | _ => simp [GType.rich, GVal.rich, flattenR, flatten]
  | .map m, t, pre => by
    cases t with
    | map e =>
      simp only [GType.rich, GVal.rich, flattenR, flatten]
      exact flattenREntries_scalars S false e pre m
    | _ => simp [GType.rich, GVal.rich, flattenR, flatten]
  | .seq xs, t, pre => by
    cases t with
    | slice e =>
      simp only [GType.rich, GVal.rich, flattenR, flatten]
      exact flattenRSeq_scalars S false e pre xs 0
    | array n e =>
      simp only [GType.rich, GVal.rich, flattenR, flatten]
      exact flattenRSeq_scalars S false e pre xs 0
    | _ => simp [GType.rich, GVal.rich, flattenR, flatten]

theorem flattenRFields_rich (S : Texts) : ∀ (vs : List GVal) (ns : List Bytes) (ts : List GType) (pre : Bytes),
    flattenRFields S ns (richTypes ts) pre (richVals vs) = some (flattenFields ns ts pre vs)
  | [], ns, ts, pre => by cases ns <;> cases ts <;> simp [richTypes, richVals, flattenRFields, flattenFields]
  | v :: vs, ns, ts, pre => by
    cases ns with
    | nil => simp [flattenRFields, flattenFields]
    | cons n ns =>
      cases ts with
      | nil => simp [richTypes, flattenRFields, flattenFields]
      | cons t ts =>
        simp only [richTypes, richVals, flattenRFields, flattenFields, flattenR_rich S v t (nest pre n),
          flattenRFields_rich S vs ns ts pre]

end

/-- A result of reading, among all values. -/
def richResult : Option (GVal × List KV × Bool) → ReadR
  | none => none
  | some r => some (r.1.rich, r.2)

theorem insertKV_map {α β : Type} (f : α → β) (e : Bytes × α) (l : List (Bytes × α)) :
    insertKV (e.1, f e.2) (l.map fun a => (a.1, f a.2)) = (insertKV e l).map fun a => (a.1, f a.2) := by
  induction l with
  | nil => rfl
  | cons a l ih =>
    simp only [List.map_cons, insertKV]
    split
    · rfl
    · rw [ih]; rfl

theorem sortKV_map {α β : Type} (f : α → β) (l : List (Bytes × α)) :
    sortKV (l.map fun a => (a.1, f a.2)) = (sortKV l).map fun a => (a.1, f a.2) := by
  induction l with
  | nil => rfl
  | cons a l ih => simp only [List.map_cons, sortKV, ih, insertKV_map]

/-- The fields with their types. -/
def fieldTypes : List Bytes → List GType → Nat → List (Bytes × Nat × GType)
  | n :: ns, t :: ts, i => (n, i, t) :: fieldTypes ns ts (i + 1)
  | _, _, _ => []

theorem fieldFns_types (ns : List Bytes) (ts : List GType) (i : Nat) :
    fieldFns ns ts i = (fieldTypes ns ts i).map fun a => (a.1, a.2.1, unflatten a.2.2) := by
  induction ns generalizing ts i with
  | nil => simp [fieldFns, fieldTypes]
  | cons n ns ih =>
    cases ts with
    | nil => rfl
    | cons t ts => simp [fieldFns, fieldTypes, ih]

theorem fieldFnsR_types (ns : List Bytes) (ts : List GType) (i : Nat) :
    fieldFnsR ns (richTypes ts) i = (fieldTypes ns ts i).map fun a => (a.1, a.2.1, unflattenR a.2.2.rich) := by
  induction ns generalizing ts i with
  | nil => cases ts <;> rfl
  | cons n ns ih =>
    cases ts with
    | nil => rfl
    | cons t ts => simp [richTypes, fieldFnsR, fieldTypes, ih]

theorem fieldTypes_at {ns : List Bytes} {ts : List GType} {k : Nat} {a : Bytes × Nat × GType} (h : a ∈ fieldTypes ns ts k) :
    k ≤ a.2.1 ∧ ts[a.2.1 - k]? = some a.2.2 := by
  induction ns generalizing ts k with
  | nil => simp [fieldTypes] at h
  | cons n ns ih =>
    cases ts with
    | nil => simp [fieldTypes] at h
    | cons t ts =>
      rw [fieldTypes, List.mem_cons] at h
      rcases h with rfl | h
      · simp
      · obtain ⟨h1, h2⟩ := ih h
        refine ⟨by omega, ?_⟩
        rw [show a.2.1 - k = a.2.1 - (k + 1) + 1 by omega]
        exact h2

theorem richVals_eq_map (vs : List GVal) : richVals vs = vs.map GVal.rich := by
  induction vs with
  | nil => rfl
  | cons v vs ih => simp [richVals, ih]

theorem richTypes_eq_map (ts : List GType) : richTypes ts = ts.map GType.rich := by
  induction ts with
  | nil => rfl
  | cons t ts ih => simp [richTypes, ih]

mutual

theorem zero_rich : ∀ t : GType, t.rich.zero = t.zero.rich
  | .scalar d s => rfl
  | .struct ns ts => by simp only [GType.rich, GType.zero, RType.zero, GVal.rich, zeros_rich ts]
  | .map e => rfl
  | .slice e => rfl
  | .array n e => by simp [GType.rich, GType.zero, RType.zero, GVal.rich]

theorem zeros_rich : ∀ ts : List GType, zerosR (richTypes ts) = richVals (zeros ts)
  | [] => rfl
  | t :: ts => by simp only [richTypes, zerosR, zeros, richVals, zero_rich t, zeros_rich ts]

end

theorem readScalar_rich (d : Bool) (s : ScalarTy) (pre : Bytes) (kv : List KV) :
    readScalar d s pre kv = richResult (unflattenScalar d s pre (.scalar s.zero) kv) := by
  unfold readScalar unflattenScalar
  cases dropUntil pre kv with
  | nil => rfl
  | cons e rest =>
    cases h : parseScalar s e.2 with
    | none => simp [h, richResult, GVal.rich]
    | some x => cases d <;> simp [h, richResult, GVal.rich]

theorem set_map (m : AMap Bytes Scalar) (k : Bytes) (x : Scalar) :
    AMap.set (m.map fun a => (a.1, RVal.scalar a.2)) k (.scalar x) = (AMap.set m k x).map fun a => (a.1, RVal.scalar a.2) := by
  induction m with
  | nil => rfl
  | cons a m ih =>
    obtain ⟨k', v'⟩ := a
    simp only [List.map_cons, AMap.set]
    split
    · rfl
    · rw [ih]; rfl

theorem mapLoopR_rich (e : ScalarTy) (kp : Bytes) (kv : List KV) (m : AMap Bytes Scalar) (n : Nat) :
    mapLoopR true (.scalar false e) kp kv (m.map fun a => (a.1, RVal.scalar a.2)) n =
      some ((mapLoop e kp kv m n).1.map fun a => (a.1, RVal.scalar a.2), (mapLoop e kp kv m n).2) := by
  induction kv generalizing m n with
  | nil => rfl
  | cons a kv ih =>
    simp only [mapLoopR, mapLoop]
    split
    · exact ih m n
    · split
      · rfl
      · simp only [parseElem]
        cases parseScalar e a.2 with
        | none => rfl
        | some x =>
          simp only [Bool.false_eq_true, if_false, if_true]
          rw [← ih]
          rw [set_map]

theorem readMap_rich (e : ScalarTy) (pre : Bytes) (kv : List KV) :
    readMap true (.scalar false e) false pre kv = richResult (unflattenMap e pre (.map []) kv) := by
  have h := mapLoopR_rich e (pre ++ [46]) kv [] 0
  simp only [List.map_nil] at h
  unfold readMap unflattenMap
  rw [h]
  obtain ⟨m, n, err⟩ := mapLoop e (pre ++ [46]) kv [] 0
  cases err
  · by_cases hn : 0 < n
    · simp [hn, richResult, GVal.rich, AMap.keys]
    · simp [hn, richResult, GVal.rich, AMap.keys]
  · simp [richResult, GVal.rich, AMap.keys]

theorem storeR_rich (e : ScalarTy) (es : List (Int × Bytes)) (xs : List Scalar) :
    storeR (.scalar false e) es (xs.map .scalar) =
      match storeElems e es xs with
      | none => none
      | some r => some (r.1.map .scalar, r.2) := by
  induction es generalizing xs with
  | nil => rfl
  | cons a es ih =>
    simp only [storeR, storeElems, parseElem]
    cases parseScalar e a.2 with
    | none => rfl
    | some x =>
      simp only [Bool.false_eq_true, if_false, List.length_map]
      split
      · rw [← ih, List.map_set]
      · rfl

theorem readSeq_rich (len : Option Nat) (e : ScalarTy) (pre : Bytes) (kv : List KV) :
    readSeq len (.scalar false e) pre kv =
      richResult (unflattenSeq len.isNone e pre (.seq (List.replicate (len.getD 0) e.zero)) kv) := by
  unfold readSeq unflattenSeq
  cases dropUntil pre kv with
  | nil => simp [richResult, GVal.rich, RType.zero]
  | cons a kv =>
    simp only
    obtain ⟨elems, rest, err⟩ := seqLoop (pre ++ [46]) (a :: kv)
    cases err
    · have hr : ∀ n, List.replicate n (RType.scalar false e).zero = (List.replicate n e.zero).map .scalar := by
        intro n; simp [RType.zero]
      simp only [Bool.false_eq_true, if_false]
      rw [hr, storeR_rich]
      cases len with
      | none =>
        simp only [Option.getD_none, Option.isNone_none, if_true]
        generalize storeElems e elems (List.replicate ((maxIndex elems).toNat + 1) e.zero) = o
        cases o <;> simp [richResult, GVal.rich]
      | some n =>
        simp only [Option.getD_some, Option.isNone_some, Bool.false_eq_true, if_false, GVal.elems]
        generalize storeElems e elems (List.replicate n e.zero) = o
        cases o <;> simp [richResult, GVal.rich]
    · simp [richResult, GVal.rich, RType.zero]

theorem readFields_rich (pre : Bytes) (L : List (Bytes × Nat × GType)) (hp : (L.map fun a => a.2.1).Nodup) (vs : List GVal)
    (hv : ∀ a ∈ L, vs[a.2.1]? = some a.2.2.zero)
    (hL : ∀ a ∈ L, ∀ pre kv, unflattenR a.2.2.rich pre kv = richResult (unflatten a.2.2 pre a.2.2.zero kv)) (kv : List KV) :
    readFields pre (L.map fun a => (a.1, a.2.1, unflattenR a.2.2.rich)) (richVals vs) kv =
      match unflattenFields pre (L.map fun a => (a.1, a.2.1, unflatten a.2.2)) vs kv with
      | none => none
      | some r => some (richVals r.1, r.2) := by
  induction L generalizing vs kv with
  | nil => rfl
  | cons a L ih =>
    simp only [List.map_cons, List.nodup_cons] at hp
    have hmem : a ∈ a :: L := List.mem_cons_self ..
    simp only [List.map_cons, readFields, unflattenFields, hv a hmem, hL a hmem]
    cases hu : unflatten a.2.2 (nest pre a.1) a.2.2.zero kv with
    | none => rfl
    | some r =>
      obtain ⟨v', kv', err⟩ := r
      have hset : (richVals vs).set a.2.1 v'.rich = richVals (vs.set a.2.1 v') := by
        rw [richVals_eq_map, richVals_eq_map, List.map_set]
      simp only [richResult, hset]
      cases err
      · simp only [Bool.false_eq_true, if_false]
        refine ih hp.2 _ ?_ (fun b hb => hL b (List.mem_cons_of_mem _ hb)) kv'
        intro b hb
        rw [List.getElem?_set_ne]
        · exact hv b (List.mem_cons_of_mem _ hb)
        · intro e
          exact hp.1 (List.mem_map.2 ⟨b, hb, e.symm⟩)
      · rfl

mutual

theorem unflattenR_rich : ∀ (t : GType) (pre : Bytes) (kv : List KV),
    unflattenR t.rich pre kv = richResult (unflatten t pre t.zero kv)
  | .scalar d s, pre, kv => by
    simp only [GType.rich, unflattenR, unflatten, GType.zero]
    exact readScalar_rich d s pre kv
  | .struct ns ts, pre, kv => by
    simp only [GType.rich, unflattenR, unflatten, GType.zero]
    cases dropUntil pre kv with
    | nil => simp only [richResult, GVal.rich, zeros_rich]
    | cons e kv =>
      simp only [GVal.fields]
      rw [fieldFns_types, fieldFnsR_types, sortKV_map (fun a : Nat × GType => (a.1, unflattenR a.2.rich)),
        sortKV_map (fun a : Nat × GType => (a.1, unflatten a.2)), zeros_rich]
      have hperm := perm_sortKV (fieldTypes ns ts 0)
      rw [readFields_rich pre (sortKV (fieldTypes ns ts 0))]
      · cases unflattenFields pre (List.map (fun a => (a.1, a.2.1, unflatten a.2.2)) (sortKV (fieldTypes ns ts 0))) (zeros ts) (e :: kv) with
        | none => rfl
        | some r => rfl
      · have := fieldFns_pos_nodup ns ts 0
        rw [fieldFns_types, List.map_map] at this
        exact ((hperm.map _).nodup_iff).2 this
      · intro a ha
        obtain ⟨-, h⟩ := fieldTypes_at (mem_sortKV.1 ha)
        rw [zeros_get, show a.2.1 = a.2.1 - 0 from rfl, h]
        rfl
      · intro a ha pre kv
        obtain ⟨-, h⟩ := fieldTypes_at (mem_sortKV.1 ha)
        exact unflattenR_richAll ts _ (List.mem_of_getElem? h) pre kv
  | .map e, pre, kv => by
    simp only [GType.rich, unflattenR, unflatten, GType.zero]
    split
    · rename_i h
      subst h
      rfl
    · exact readMap_rich e pre kv
  | .slice e, pre, kv => by
    simp only [GType.rich, unflattenR, unflatten, GType.zero]
    exact readSeq_rich none e pre kv
  | .array n e, pre, kv => by
    simp only [GType.rich, unflattenR, unflatten, GType.zero]
    exact readSeq_rich (some n) e pre kv

theorem unflattenR_richAll : ∀ (ts : List GType), ∀ t ∈ ts, ∀ (pre : Bytes) (kv : List KV),
    unflattenR t.rich pre kv = richResult (unflatten t pre t.zero kv)
  | [], t, h, pre, kv => by cases h
  | u :: ts, t, h, pre, kv => by
    rcases List.mem_cons.1 h with h' | h'
    · rw [h']
      exact unflattenR_rich u pre kv
    · exact unflattenR_richAll ts t h' pre kv

end

end Appdash
