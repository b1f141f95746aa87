import Verif.Spec.EventSize
import Verif.Proofs.ReflectStruct

/-!
# The size of what is read from annotations
-/

namespace Appdash

open Spec

/-- The size of pairs. -/
def kvSize (kv : List KV) : Nat := (kv.map fun e => 1 + e.1.length + e.2.length).sum

theorem kvSize_cons (e : KV) (kv : List KV) : kvSize (e :: kv) = 1 + e.1.length + e.2.length + kvSize kv := by
  simp [kvSize]

theorem kvSize_suffix {a b : List KV} (h : a <:+ b) : kvSize a ≤ kvSize b := by
  obtain ⟨c, rfl⟩ := h
  simp [kvSize]

theorem parseScalar_size {s : ScalarTy} {y : Bytes} {x : Scalar} (h : parseScalar s y = some x) : scalarSize x ≤ y.length := by
  cases s <;> simp only [parseScalar, Option.map_eq_some_iff, Option.some.injEq] at h
  case string => subst h; exact Nat.le_refl _
  all_goals
    obtain ⟨_, -, rfl⟩ := h
    exact Nat.zero_le _

/-- Reading takes at most `c` times the size of the pairs. -/
def ReadBound (c : Nat) (f : Unflatten) : Prop :=
  ∀ pre v kv v' kv' err, f pre v kv = some (v', kv', err) → valueSize v' ≤ valueSize v + c * kvSize kv ∧ kvSize kv' ≤ kvSize kv

theorem unflattenScalar_bound (d : Bool) (s : ScalarTy) : ReadBound 1 (unflattenScalar d s) := by
  intro pre v kv v' kv' err h
  unfold unflattenScalar at h
  have hs := kvSize_suffix (dropUntil_suffix pre kv)
  generalize dropUntil pre kv = l at h hs
  cases l with
  | nil =>
    simp only [Option.some.injEq, Prod.mk.injEq] at h
    obtain ⟨rfl, rfl, rfl⟩ := h
    exact ⟨Nat.le_add_right _ _, Nat.le_trans (Nat.le_of_eq rfl) hs⟩
  | cons e rest =>
    dsimp only at h
    cases hp : parseScalar s e.2 with
    | none =>
      simp only [hp, Option.some.injEq, Prod.mk.injEq] at h
      obtain ⟨rfl, rfl, rfl⟩ := h
      exact ⟨Nat.le_add_right _ _, hs⟩
    | some x =>
      rw [hp] at h
      dsimp only at h
      split at h
      · cases h
      · simp only [Option.some.injEq, Prod.mk.injEq] at h
        obtain ⟨rfl, rfl, rfl⟩ := h
        have := parseScalar_size hp
        rw [kvSize_cons] at hs
        simp only [valueSize]
        omega

theorem mapSet_size (m : AMap Bytes Scalar) (k : Bytes) (x : Scalar) :
    valueSize (.map (AMap.set m k x)) ≤ valueSize (.map m) + (1 + k.length + scalarSize x) := by
  simp only [valueSize]
  induction m with
  | nil => simp [AMap.set]
  | cons e m ih =>
    rw [AMap.set]
    split
    · rename_i h
      simp only [List.map_cons, List.sum_cons]
      omega
    · simp only [List.map_cons, List.sum_cons]
      omega

theorem mapLoop_size (elem : ScalarTy) (p : Bytes) : ∀ (kv : List KV) (m : AMap Bytes Scalar) (n : Nat),
    valueSize (.map (mapLoop elem p kv m n).1) ≤ valueSize (.map m) + kvSize kv
  | [], m, n => by simp [mapLoop, kvSize]
  | e :: kv, m, n => by
    rw [mapLoop, kvSize_cons]
    split
    · have := mapLoop_size elem p kv m n
      omega
    · split
      · dsimp only; omega
      · cases hp : parseScalar elem e.2 with
        | none => dsimp only; omega
        | some x =>
          dsimp only
          have h1 := mapLoop_size elem p kv (AMap.set m (e.1.drop p.length) x) (n + 1)
          have h2 := mapSet_size m (e.1.drop p.length) x
          have h3 := parseScalar_size hp
          have h4 : (e.1.drop p.length).length ≤ e.1.length := by simp
          omega

theorem unflattenMap_bound (elem : ScalarTy) : ReadBound 1 (unflattenMap elem) := by
  intro pre v kv v' kv' err h
  have hm := mapLoop_size elem (pre ++ [46]) kv [] 0
  unfold unflattenMap at h
  generalize mapLoop elem (pre ++ [46]) kv [] 0 = r at h hm
  obtain ⟨m, n, e⟩ := r
  dsimp only at h hm
  have hd : kvSize (kv.drop n) ≤ kvSize kv := kvSize_suffix (List.drop_suffix n kv)
  have h0 : valueSize (.map []) = 0 := by simp [valueSize]
  split at h
  · simp only [Option.some.injEq, Prod.mk.injEq] at h
    obtain ⟨rfl, rfl, rfl⟩ := h
    exact ⟨by omega, hd⟩
  · split at h
    · simp only [Option.some.injEq, Prod.mk.injEq] at h
      obtain ⟨rfl, rfl, rfl⟩ := h
      exact ⟨by omega, hd⟩
    · simp only [Option.some.injEq, Prod.mk.injEq] at h
      obtain ⟨rfl, rfl, rfl⟩ := h
      exact ⟨by omega, Nat.le_refl _⟩

/-- The size of elements that are still texts. -/
def elemsSize (es : List (Int × Bytes)) : Nat := (es.map fun e => e.2.length).sum

theorem seqLoop_size (p : Bytes) : ∀ (kv : List KV),
    elemsSize (seqLoop p kv).1 ≤ kvSize kv ∧ kvSize (seqLoop p kv).2.1 ≤ kvSize kv
  | [] => by simp [seqLoop, elemsSize, kvSize]
  | e :: kv => by
    rw [seqLoop, kvSize_cons]
    split
    · split
      · simp [elemsSize, kvSize_cons]
      · obtain ⟨h1, h2⟩ := seqLoop_size p kv
        generalize seqLoop p kv = q at h1 h2 ⊢
        obtain ⟨es, rest, err⟩ := q
        simp only [elemsSize, List.map_cons, List.sum_cons] at h1 h2 ⊢
        omega
    · simp [elemsSize, kvSize_cons]

theorem set_size (xs : List Scalar) (i : Nat) (x : Scalar) : valueSize (.seq (xs.set i x)) ≤ valueSize (.seq xs) + scalarSize x := by
  simp only [valueSize]
  induction xs generalizing i with
  | nil => simp
  | cons y xs ih =>
    cases i with
    | zero =>
      simp only [List.set_cons_zero, List.map_cons, List.sum_cons]
      omega
    | succ i =>
      simp only [List.set_cons_succ, List.map_cons, List.sum_cons]
      have := ih i
      omega

theorem storeElems_size (elem : ScalarTy) : ∀ (es : List (Int × Bytes)) (xs : List Scalar) (r : List Scalar × Bool),
    storeElems elem es xs = some r → valueSize (.seq r.1) ≤ valueSize (.seq xs) + elemsSize es
  | [], xs, r, h => by
    simp only [storeElems, Option.some.injEq] at h
    subst h
    exact Nat.le_add_right _ _
  | e :: es, xs, r, h => by
    rw [storeElems] at h
    cases hp : parseScalar elem e.2 with
    | none =>
      simp only [hp, Option.some.injEq] at h
      subst h
      exact Nat.le_add_right _ _
    | some x =>
      rw [hp] at h
      dsimp only at h
      split at h
      · have h1 := storeElems_size elem es _ r h
        have h2 := set_size xs e.1.toNat x
        have h3 := parseScalar_size hp
        simp only [elemsSize, List.map_cons, List.sum_cons] at h1 ⊢
        omega
      · cases h

theorem unflattenArray_bound (elem : ScalarTy) : ReadBound 1 (unflattenSeq false elem) := by
  intro pre v kv v' kv' err h
  unfold unflattenSeq at h
  have hs := kvSize_suffix (dropUntil_suffix pre kv)
  generalize dropUntil pre kv = l at h hs
  cases l with
  | nil =>
    simp only [Option.some.injEq, Prod.mk.injEq] at h
    obtain ⟨rfl, rfl, rfl⟩ := h
    exact ⟨Nat.le_add_right _ _, hs⟩
  | cons e rest =>
    dsimp only at h
    have hl := seqLoop_size (pre ++ [46]) (e :: rest)
    generalize seqLoop (pre ++ [46]) (e :: rest) = q at h hl
    obtain ⟨elems, rest', err'⟩ := q
    dsimp only at h hl
    split at h
    · simp only [Option.some.injEq, Prod.mk.injEq] at h
      obtain ⟨rfl, rfl, rfl⟩ := h
      exact ⟨Nat.le_add_right _ _, by omega⟩
    · simp only [Bool.false_eq_true, if_false] at h
      split at h
      · cases h
      · rename_i xs e2 hst
        simp only [Option.some.injEq, Prod.mk.injEq] at h
        obtain ⟨rfl, rfl, rfl⟩ := h
        have h1 := storeElems_size elem _ _ _ hst
        dsimp only at h1
        have h2 : valueSize (.seq v.elems) ≤ valueSize v := by
          cases v <;> simp [GVal.elems, valueSize]
        constructor <;> omega

theorem valuesSize_set : ∀ (vs : List GVal) (i : Nat) (v v' : GVal), vs[i]? = some v →
    valuesSize (vs.set i v') + valueSize v = valuesSize vs + valueSize v'
  | [], i, v, v', h => by simp at h
  | w :: vs, 0, v, v', h => by
    simp only [List.getElem?_cons_zero, Option.some.injEq] at h
    subst h
    simp only [List.set_cons_zero, valuesSize]
    omega
  | w :: vs, i + 1, v, v', h => by
    simp only [List.getElem?_cons_succ] at h
    have := valuesSize_set vs i v v' h
    simp only [List.set_cons_succ, valuesSize]
    omega

theorem unflattenFields_bound (pre : Bytes) (cost : Nat → Nat) : ∀ (fs : List (Bytes × Nat × Unflatten)) (vs : List GVal) (kv : List KV)
    (vs' : List GVal) (kv' : List KV) (err : Bool), (∀ e ∈ fs, ReadBound (cost e.2.1) e.2.2) →
    unflattenFields pre fs vs kv = some (vs', kv', err) →
      valuesSize vs' ≤ valuesSize vs + (fs.map fun e => cost e.2.1).sum * kvSize kv ∧ kvSize kv' ≤ kvSize kv
  | [], vs, kv, vs', kv', err, _, h => by
    simp only [unflattenFields, Option.some.injEq, Prod.mk.injEq] at h
    obtain ⟨rfl, rfl, rfl⟩ := h
    exact ⟨Nat.le_add_right _ _, Nat.le_refl _⟩
  | (name, i, f) :: fs, vs, kv, vs', kv', err, hb, h => by
    rw [unflattenFields] at h
    have hb' : ∀ e ∈ fs, ReadBound (cost e.2.1) e.2.2 := fun e he => hb e (List.mem_cons_of_mem _ he)
    simp only [List.map_cons, List.sum_cons, Nat.add_mul]
    cases hv : vs[i]? with
    | none =>
      rw [hv] at h
      have := unflattenFields_bound pre cost fs vs kv vs' kv' err hb' h
      omega
    | some v =>
      rw [hv] at h
      dsimp only at h
      split at h
      · cases h
      · rename_i v1 kv1 e1 hf
        obtain ⟨h1, h2⟩ := hb (name, i, f) (List.mem_cons_self ..) _ _ _ _ _ _ hf
        have hset := valuesSize_set vs i v v1 hv
        dsimp only at h1
        split at h
        · simp only [Option.some.injEq, Prod.mk.injEq] at h
          obtain ⟨rfl, rfl, rfl⟩ := h
          exact ⟨by omega, h2⟩
        · obtain ⟨h3, h4⟩ := unflattenFields_bound pre cost fs _ _ vs' kv' err hb' h
          have h5 := Nat.mul_le_mul_left (fs.map fun e => cost e.2.1).sum h2
          constructor <;> omega

theorem fieldFns_pos_ge : ∀ (ns : List Bytes) (ts : List GType) (i : Nat), ∀ e ∈ fieldFns ns ts i, i ≤ e.2.1
  | n :: ns, t :: ts, i, e, he => by
    rw [fieldFns, List.mem_cons] at he
    rcases he with rfl | he
    · exact Nat.le_refl _
    · have := fieldFns_pos_ge ns ts (i + 1) e he
      omega
  | [], ts, i, e, he => by simp [fieldFns] at he
  | _ :: _, [], i, e, he => by simp [fieldFns] at he

mutual

theorem unflatten_bound : ∀ t : GType, sliceFree t = true → ReadBound (fieldCount t) (unflatten t)
  | .scalar d s, _ => by rw [unflatten]; exact unflattenScalar_bound d s
  | .map e, _ => by rw [unflatten]; exact unflattenMap_bound e
  | .slice e, h => by simp [sliceFree] at h
  | .array n e, _ => by rw [unflatten]; exact unflattenArray_bound e
  | .struct ns ts, h => by
    rw [unflatten, fieldCount]
    simp only [sliceFree] at h
    obtain ⟨cost, h1, h2⟩ := fieldFns_bound ns ts 0 h
    intro pre v kv v' kv' err hr
    dsimp only at hr
    have hs := kvSize_suffix (dropUntil_suffix pre kv)
    generalize dropUntil pre kv = l at hr hs
    cases l with
    | nil =>
      simp only [Option.some.injEq, Prod.mk.injEq] at hr
      obtain ⟨rfl, rfl, rfl⟩ := hr
      exact ⟨Nat.le_add_right _ _, hs⟩
    | cons e rest =>
      dsimp only at hr
      split at hr
      · cases hr
      · rename_i vs rest' err' hf
        simp only [Option.some.injEq, Prod.mk.injEq] at hr
        obtain ⟨rfl, rfl, rfl⟩ := hr
        have hp := perm_sortKV (fieldFns ns ts 0)
        obtain ⟨h3, h4⟩ := unflattenFields_bound pre cost _ _ _ _ _ _ (fun e he => h1 e (hp.mem_iff.1 he)) hf
        rw [(hp.map fun e => cost e.2.1).sum_nat] at h3
        have h5 := Nat.mul_le_mul h2 hs
        have h6 : valuesSize v.fields ≤ valueSize v := by cases v <;> simp [GVal.fields, valueSize, valuesSize]
        simp only [valueSize]
        constructor <;> omega

theorem fieldFns_bound : ∀ (ns : List Bytes) (ts : List GType) (i : Nat), sliceFrees ts = true →
    ∃ cost : Nat → Nat, (∀ e ∈ fieldFns ns ts i, ReadBound (cost e.2.1) e.2.2) ∧
      ((fieldFns ns ts i).map fun e => cost e.2.1).sum ≤ fieldCounts ts
  | n :: ns, t :: ts, i, h => by
    simp only [sliceFrees, Bool.and_eq_true] at h
    obtain ⟨cost, h1, h2⟩ := fieldFns_bound ns ts (i + 1) h.2
    have hpos : ∀ e ∈ fieldFns ns ts (i + 1), e.2.1 ≠ i := by
      intro e he
      have := fieldFns_pos_ge ns ts (i + 1) e he
      omega
    refine ⟨fun j => if j = i then fieldCount t else cost j, ?_, ?_⟩
    · intro e he
      rw [fieldFns, List.mem_cons] at he
      rcases he with rfl | he
      · simp only [if_true]
        exact unflatten_bound t h.1
      · dsimp only
        rw [if_neg (hpos e he)]
        exact h1 e he
    · rw [fieldFns, List.map_cons, List.sum_cons, fieldCounts]
      dsimp only
      rw [if_pos rfl]
      rw [List.map_congr_left (fun e he => if_neg (hpos e he))]
      omega
  | [], ts, i, _ => ⟨fun _ => 0, by simp [fieldFns], by simp [fieldFns]⟩
  | _ :: _, [], i, _ => ⟨fun _ => 0, by simp [fieldFns], by simp [fieldFns]⟩

end

theorem set_kvSize (m : AMap Bytes Bytes) (k y : Bytes) : kvSize (AMap.set m k y) ≤ kvSize m + (1 + k.length + y.length) := by
  induction m with
  | nil => simp [AMap.set, kvSize]
  | cons e m ih =>
    rw [AMap.set]
    split
    · simp only [kvSize_cons]
      omega
    · rw [kvSize_cons, kvSize_cons]
      dsimp only
      omega

theorem stringMap_size (as : List Annotation) : kvSize (stringMap as) ≤ annotationsSize as := by
  have : ∀ (as : List Annotation) (m : AMap Bytes Bytes),
      kvSize (as.foldl (fun m a => AMap.set m a.key a.valueString) m) ≤ kvSize m + annotationsSize as := by
    intro as
    induction as with
    | nil => intro m; exact Nat.le_add_right _ _
    | cons a as ih =>
      intro m
      have h1 := ih (AMap.set m a.key a.valueString)
      have h2 := set_kvSize m a.key a.valueString
      have h3 : a.valueString.length = (a.value.getD []).length := rfl
      simp only [annotationsSize, List.map_cons, List.sum_cons] at h1 ⊢
      rw [List.foldl_cons]
      omega
  have h := this as []
  simpa [stringMap, kvSize] using h

theorem unmarshalEvent_size {E : EventType} (hu : E.unmarshaler = none) (hf : sliceFree E.type = true) {as : List Annotation} {v v' : GVal}
    {err : Option EventErr} (h : unmarshalEvent E as v = some (v', err)) :
    valueSize v' ≤ valueSize v + fieldCount E.type * annotationsSize as := by
  unfold unmarshalEvent at h
  split at h
  · simp only [Option.some.injEq, Prod.mk.injEq] at h
    obtain ⟨rfl, -⟩ := h
    exact Nat.le_add_right _ _
  · rw [hu] at h
    dsimp only at h
    split at h
    · cases h
    · rename_i w kv' e' hw
      simp only [Option.some.injEq, Prod.mk.injEq] at h
      obtain ⟨rfl, -⟩ := h
      have h1 := (unflatten_bound E.type hf _ _ _ _ _ _ hw).1
      have h2 : kvSize (mapToKVs (stringMap as)) ≤ annotationsSize as := by
        have : kvSize (mapToKVs (stringMap as)) = kvSize (stringMap as) :=
          ((perm_sortKV (stringMap as)).map fun e : KV => 1 + e.1.length + e.2.length).sum_nat
        rw [this]
        exact stringMap_size as
      have h3 := Nat.mul_le_mul_left (fieldCount E.type) h2
      omega

theorem unmarshalLoop_size {reg : Registry} {b : Nat} {as : List Annotation} (hb : ∀ (s : Bytes) (E : EventType), AMap.get reg s = some E →
      ∀ v err, unmarshalEvent E as E.type.zero = some (v, err) → valueSize v ≤ b) :
    ∀ (ss : List Bytes) (evs evs' : List (Bytes × GVal)) (err : Option EventErr), unmarshalLoop reg as ss evs = some (evs', err) →
      eventsSize evs' ≤ eventsSize evs + (ss.filter fun s => (AMap.get reg s).isSome).length * (1 + b)
  | [], evs, evs', err, h => by
    simp only [unmarshalLoop, Option.some.injEq, Prod.mk.injEq] at h
    obtain ⟨rfl, -⟩ := h
    exact Nat.le_add_right _ _
  | s :: ss, evs, evs', err, h => by
    rw [unmarshalLoop] at h
    cases hg : AMap.get reg s with
    | none =>
      rw [hg] at h
      have := unmarshalLoop_size hb ss evs evs' err h
      rw [List.filter_cons_of_neg (by simp [hg])]
      exact this
    | some E =>
      rw [hg] at h
      rw [List.filter_cons_of_pos (by simp [hg]), List.length_cons, Nat.add_mul]
      dsimp only at h
      split at h
      · cases h
      · simp only [Option.some.injEq, Prod.mk.injEq] at h
        obtain ⟨rfl, -⟩ := h
        exact Nat.le_add_right _ _
      · rename_i v hv
        have h1 := unmarshalLoop_size hb ss _ evs' err h
        have h2 := hb s E hg _ _ hv
        have h3 : eventsSize (evs ++ [(s, v)]) = eventsSize evs + (1 + valueSize v) := by simp [eventsSize]
        omega

theorem registerAll_get : ∀ (Es : List EventType) (reg reg' : Registry), registerAll Es reg = some reg' → ∀ (s : Bytes) (E : EventType),
    AMap.get reg' s = some E → AMap.get reg s = some E ∨ E ∈ Es ∧ E.schema = s
  | [], reg, reg', h, s, E, hE => by
    simp only [registerAll, Option.some.injEq] at h
    subst h
    exact .inl hE
  | F :: Es, reg, reg', h, s, E, hE => by
    rw [registerAll] at h
    split at h
    · cases h
    · rename_i reg1 h1
      rcases registerAll_get Es reg1 reg' h s E hE with h2 | ⟨h2, h3⟩
      · unfold registerEvent at h1
        split at h1
        · cases h1
        · split at h1
          · cases h1
          · simp only [Option.some.injEq] at h1
            subst h1
            rw [AMap.get_set] at h2
            split at h2
            · rename_i e
              simp only [Option.some.injEq] at h2
              subst h2
              exact .inr ⟨List.mem_cons_self .., e⟩
            · exact .inl h2
      · exact .inr ⟨List.mem_cons_of_mem _ h2, h3⟩

theorem schemas_keys (as : List Annotation) : (schemas as).map (fun s => b!"_schema:" ++ s) =
    (as.map Annotation.key).filter fun k => b!"_schema:".isPrefixOf k := by
  induction as with
  | nil => rfl
  | cons a as ih =>
    rw [schemas, List.map_cons]
    by_cases hp : schemaPrefix.isPrefixOf a.key = true
    · rw [if_pos hp, List.filter_cons_of_pos (by exact hp), List.map_cons, ih]
      congr 1
      obtain ⟨t, ht⟩ := List.isPrefixOf_iff_prefix.1 hp
      rw [← ht]
      rfl
    · rw [if_neg hp, List.filter_cons_of_neg (by exact hp), ih]

end Appdash
