import Verif.Proofs.ReflectKeys

/-! # The decoder inverts the encoder -/

namespace Appdash

mutual

/-- The paths of the scalars, maps and sequences of a type. -/
def leaves : GType → Bytes → List Bytes
  | .struct ns ts, pre => leavesAll ns ts pre
  | .scalar _ _, pre => [pre]
  | .map _, pre => [pre]
  | .slice _, pre => [pre]
  | .array _ _, pre => [pre]

/-- The paths of the fields. -/
def leavesAll : List Bytes → List GType → Bytes → List Bytes
  | n :: ns, t :: ts, pre => leaves t (nest pre n) ++ leavesAll ns ts pre
  | _, _, _ => []

end

/-- What decoding one value with `f` at path `P` must achieve: whenever the sorted pairs contain the value's own pairs `fl` and
nothing else that clashes with its leaves `lv`, it succeeds, yields the value, and leaves all later pairs. -/
def Decodes (f : Unflatten) (P : Bytes) (v0 v : GVal) (fl : List KV) (lv : List Bytes) : Prop :=
  ∀ kv : List KV, SortedKV kv → (∀ e ∈ fl, e ∈ kv) → (∀ e ∈ kv, e ∈ fl ∨ ∀ p ∈ lv, clash p e.1 = false) →
    ∃ v' kv', f P v0 kv = some (v', kv', false) ∧ v.Same v' ∧ kv' <:+ kv ∧
      ∀ e ∈ kv, (∀ k ∈ fl, k.1 < e.1) → e ∈ kv'

/-! ## Scalars -/

theorem decodes_scalar (s : ScalarTy) (x : Scalar) (h : s.holds x = true) (P : Bytes) (v0 : GVal) :
    Decodes (unflattenScalar false s) P v0 (.scalar x) [(P, x.text)] [P] := by
  intro kv hs hin _
  have hmem := hin (P, x.text) (List.mem_singleton.2 rfl)
  have hpp : P.isPrefixOf P = true := clash_prefix (clash_refl P)
  have hd := mem_dropUntil hmem hpp
  have hsuf := dropUntil_suffix P kv
  unfold unflattenScalar
  cases hdu : dropUntil P kv with
  | nil => rw [hdu] at hd; simp at hd
  | cons e rest =>
    rw [hdu] at hd hsuf
    have hsd := sorted_suffix hsuf hs
    have he : e = (P, x.text) := by
      rcases List.mem_cons.1 hd with h | h
      · exact h.symm
      · have := (List.pairwise_cons.1 hsd).1 _ h
        exact absurd this (not_lt_prefix (dropUntil_head hdu))
    subst he
    simp only [parseScalar_text h]
    refine ⟨.scalar x, rest, rfl, .scalar x, (List.suffix_cons _ _).trans hsuf, ?_⟩
    intro e he hk
    have hlt := hk _ (List.mem_singleton.2 rfl)
    have := mem_suffix_of_lt hs hsuf (List.mem_cons_self ..) he hlt
    rcases List.mem_cons.1 this with h | h
    · subst h; exact absurd hlt (blt_irrefl _)
    · exact h

/-! ## Maps -/

theorem mapLoop_spec (elem : ScalarTy) (kp : Bytes) (kv : List KV) (hs : SortedKV kv)
    (hp : ∀ e ∈ kv, kp.isPrefixOf e.1 = true → ∃ x, parseScalar elem e.2 = some x) (m : AMap Bytes Scalar) (n : Nat) :
    ∃ m' c, mapLoop elem kp kv m n = (m', n + c, false) ∧
      (∀ k, AMap.get m' k = match AMap.get kv (kp ++ k) with
        | some t => parseScalar elem t
        | none => AMap.get m k) ∧
      (c = 0 → m' = m) ∧
      (∀ e ∈ kv, (∀ e' ∈ kv, kp.isPrefixOf e'.1 = true → e'.1 < e.1) → e ∈ kv.drop c) ∧
      ((∀ e ∈ kv, kp.isPrefixOf e.1 = false) → c = 0) ∧
      ((∃ e ∈ kv, kp.isPrefixOf e.1 = true) → 0 < c) := by
  induction kv generalizing m n with
  | nil => exact ⟨m, 0, by simp [mapLoop], by simp, fun _ => rfl, by simp, by simp, by simp⟩
  | cons e kv ih =>
    have hs' := List.pairwise_cons.1 hs
    have hp' : ∀ e ∈ kv, kp.isPrefixOf e.1 = true → ∃ x, parseScalar elem e.2 = some x :=
      fun f hf => hp f (List.mem_cons_of_mem _ hf)
    obtain ⟨ek, ev⟩ := e
    simp only [mapLoop]
    split
    · rename_i hlt
      have hnp : kp.isPrefixOf ek = false := by
        cases h : kp.isPrefixOf ek with
        | false => rfl
        | true => exact absurd hlt (not_lt_prefix h)
      obtain ⟨m', c, h1, h2, h3, h4, h5, h6⟩ := ih hs'.2 hp' m n
      refine ⟨m', c, h1, ?_, h3, ?_, ?_, ?_⟩
      · intro k
        rw [h2 k]
        have : ¬ ek = kp ++ k := by
          intro he
          rw [he, isPrefixOf_append.2 ⟨k, rfl⟩] at hnp
          exact absurd hnp (by decide)
        simp only [AMap.get, this, if_false]
      · intro f hf hall
        by_cases hc : c = 0
        · subst hc; simpa using hf
        · obtain ⟨c', rfl⟩ : ∃ c', c = c' + 1 := ⟨c - 1, by omega⟩
          rw [List.drop_succ_cons]
          rcases List.mem_cons.1 hf with rfl | hf'
          · exfalso
            -- some later pair has the prefix, and would have to come before this one
            have : ¬ ∀ e ∈ kv, kp.isPrefixOf e.1 = false := fun h => by have := h5 h; omega
            apply this
            intro e he
            cases hpe : kp.isPrefixOf e.1 with
            | false => rfl
            | true =>
              have a := hall e (List.mem_cons_of_mem _ he) hpe
              exact absurd (blt_trans a (hs'.1 e he)) (blt_irrefl _)
          · have := h4 f hf' fun e' he' => hall e' (List.mem_cons_of_mem _ he')
            exact (List.drop_sublist_drop_left kv (Nat.le_succ c')).subset this
      · intro hall
        exact h5 fun e he => hall e (List.mem_cons_of_mem _ he)
      · rintro ⟨f, hf, hpf⟩
        rcases List.mem_cons.1 hf with rfl | hf
        · rw [hnp] at hpf; exact absurd hpf (by decide)
        · exact h6 ⟨f, hf, hpf⟩
    · rename_i hnlt
      split
      · rename_i hbr
        have hgt : ∀ f ∈ (ek, ev) :: kv, kp.isPrefixOf f.1 = false := by
          intro f hf
          rcases List.mem_cons.1 hf with rfl | hf
          · exact hbr.2
          · cases hpf : kp.isPrefixOf f.1 with
            | false => rfl
            | true =>
              have := prefix_between (p := kp) (clash_prefix (clash_refl kp)) hpf hbr.1 (hs'.1 f hf)
              rw [hbr.2] at this; exact absurd this (by decide)
        refine ⟨m, 0, rfl, ?_, fun _ => rfl, ?_, fun _ => rfl, ?_⟩
        · intro k
          have : AMap.get ((ek, ev) :: kv) (kp ++ k) = none := by
            cases hg : AMap.get ((ek, ev) :: kv) (kp ++ k) with
            | none => rfl
            | some t =>
              have := hgt _ (AMap.mem_of_get hg)
              rw [isPrefixOf_append.2 ⟨k, rfl⟩] at this
              exact absurd this (by decide)
          rw [this]
        · intro f hf _; simpa using hf
        · rintro ⟨f, hf, hpf⟩
          rw [hgt f hf] at hpf; exact absurd hpf (by decide)
      · rename_i hnbr
        have hpe : kp.isPrefixOf ek = true := by
          rcases blt_tri ek kp with h | h | h
          · exact absurd h hnlt
          · rw [h]; exact clash_prefix (clash_refl kp)
          · cases h' : kp.isPrefixOf ek with
            | true => rfl
            | false => exact absurd ⟨h, h'⟩ hnbr
        obtain ⟨x, hx⟩ := hp _ (List.mem_cons_self ..) hpe
        simp only at hx
        simp only [hx]
        obtain ⟨m', c, h1, h2, h3, h4, h5, h6⟩ := ih hs'.2 hp' (AMap.set m (ek.drop kp.length) x) (n + 1)
        obtain ⟨r, hr⟩ := isPrefixOf_append.1 hpe
        refine ⟨m', c + 1, by rw [h1]; congr 2; omega, ?_, by omega, ?_, ?_, fun _ => by omega⟩
        · intro k
          rw [h2 k]
          by_cases hk : ek = kp ++ k
          · have hnone : AMap.get kv (kp ++ k) = none := by
              cases hg : AMap.get kv (kp ++ k) with
              | none => rfl
              | some t =>
                have := hs'.1 _ (AMap.mem_of_get hg)
                simp only at this
                rw [hk] at this
                exact absurd this (blt_irrefl _)
            rw [hnone]
            simp only [AMap.get, hk, if_true, hx]
            rw [AMap.get_set, if_pos (by rw [List.drop_left])]
          · simp only [AMap.get, hk, if_false]
            cases hg : AMap.get kv (kp ++ k) with
            | some t => rfl
            | none =>
              simp only
              rw [AMap.get_set, if_neg]
              intro h
              apply hk
              rw [hr, List.drop_left] at h
              rw [hr, h]
        · intro f hf hall
          rw [List.drop_succ_cons]
          rcases List.mem_cons.1 hf with rfl | hf'
          · exact absurd (hall _ (List.mem_cons_self ..) hpe) (blt_irrefl _)
          · exact h4 f hf' fun e' he' => hall e' (List.mem_cons_of_mem _ he')
        · intro hall
          have := hall _ (List.mem_cons_self ..)
          simp only at this
          rw [hpe] at this; exact absurd this (by decide)

theorem decodes_map (elem : ScalarTy) (m : AMap Bytes Scalar) (hn : m.keys.Nodup)
    (hh : ∀ e ∈ m, elem.holds e.2 = true) (P : Bytes) (hP : P ≠ []) :
    Decodes (unflattenMap elem) P (.map []) (.map m) (flattenMap P m) [P] := by
  intro kv hs hin hfor
  have hkp : ∀ e ∈ kv, (P ++ [46]).isPrefixOf e.1 = true → e ∈ flattenMap P m := by
    intro e he hp
    rcases hfor e he with h | h
    · exact h
    · obtain ⟨r, hr⟩ := isPrefixOf_append.1 hp
      have := h P (List.mem_singleton.2 rfl)
      rw [hr, List.append_assoc] at this
      rw [show [46] ++ r = 46 :: r from rfl, clash_dot] at this
      exact absurd this (by decide)
  have hkey : ∀ e ∈ flattenMap P m, (P ++ [46]).isPrefixOf e.1 = true := by
    intro e he
    obtain ⟨f, _, rfl⟩ := List.mem_map.1 he
    simp only [nest, hP, if_false]
    exact isPrefixOf_append.2 ⟨f.1, by simp⟩
  have hparse : ∀ e ∈ kv, (P ++ [46]).isPrefixOf e.1 = true → ∃ x, parseScalar elem e.2 = some x := by
    intro e he hp
    obtain ⟨f, hf, rfl⟩ := List.mem_map.1 (hkp e he hp)
    exact ⟨_, parseScalar_text (hh f hf)⟩
  obtain ⟨m', c, h1, h2, h3, h4, h5, h6⟩ := mapLoop_spec elem (P ++ [46]) kv hs hparse [] 0
  have hkvn : (AMap.keys kv).Nodup := by
    rw [AMap.keys, List.nodup_iff_pairwise_ne, List.pairwise_map]
    exact hs.imp fun {a b} h => by intro he; rw [he] at h; exact blt_irrefl _ h
  have hsame : ∀ k, AMap.get m k = AMap.get m' k := by
    intro k
    rw [h2 k]
    cases hg : AMap.get kv (P ++ [46] ++ k) with
    | none =>
      simp only [AMap.get_nil]
      cases hm : AMap.get m k with
      | none => rfl
      | some x =>
        have hf : (nest P k, x.text) ∈ flattenMap P m := List.mem_map.2 ⟨(k, x), AMap.mem_of_get hm, rfl⟩
        have := AMap.get_of_mem hkvn (hin _ hf)
        simp only [nest, hP, if_false] at this
        rw [show P ++ [46] ++ k = P ++ 46 :: k by simp, this] at hg
        simp at hg
    | some t =>
      have hmem := hkp _ (AMap.mem_of_get hg) (isPrefixOf_append.2 ⟨k, rfl⟩)
      obtain ⟨f, hf, he⟩ := List.mem_map.1 hmem
      simp only [nest, hP, if_false, Prod.mk.injEq] at he
      have hk : f.1 = k := by
        have h := he.1
        rw [List.append_assoc] at h
        have := List.append_cancel_left h
        simpa using this
      simp only
      rw [← he.2, parseScalar_text (hh f hf), ← hk]
      exact AMap.get_of_mem hn hf
  unfold unflattenMap
  rw [h1]
  simp only [Nat.zero_add, Bool.false_eq_true, if_false]
  have hkeep : ∀ e ∈ kv, (∀ k ∈ flattenMap P m, k.1 < e.1) → e ∈ kv.drop c := by
    intro e he hall
    exact h4 e he fun e' he' hp => hall e' (hkp e' he' hp)
  by_cases hc : c = 0
  · subst hc
    simp only [Nat.lt_irrefl, if_false]
    have hm' := h3 rfl
    subst hm'
    exact ⟨.map [], kv, rfl, .map _ _ hsame, List.suffix_refl _, fun e he _ => he⟩
  · rw [if_pos (by omega)]
    exact ⟨.map m', kv.drop c, rfl, .map _ _ hsame, List.drop_suffix _ _, hkeep⟩

/-! ## Sequences -/

theorem formatInt_inj {i j : Nat} (hi : i < 2 ^ 63) (hj : j < 2 ^ 63) (h : formatInt i = formatInt j) : i = j := by
  have a := parseIntDec_formatInt i (by omega) (by omega)
  have b := parseIntDec_formatInt j (by omega) (by omega)
  rw [h, b] at a
  have := Option.some.inj a
  omega

theorem mem_flattenSeq {P : Bytes} {xs : List Scalar} {i : Nat} {e : KV} :
    e ∈ flattenSeq P i xs ↔ ∃ j x, xs[j]? = some x ∧ e = (nest P (formatInt (i + j : Nat)), x.text) := by
  induction xs generalizing i with
  | nil => simp [flattenSeq]
  | cons y ys ih =>
    simp only [flattenSeq, List.mem_cons, ih]
    constructor
    · rintro (h | ⟨j, x, hx, he⟩)
      · exact ⟨0, y, by simp, by simpa using h⟩
      · exact ⟨j + 1, x, by simpa using hx, by rw [he]; congr 3; omega⟩
    · rintro ⟨j, x, hx, he⟩
      cases j with
      | zero => left; simp at hx; subst hx; simpa using he
      | succ j => right; exact ⟨j, x, by simpa using hx, by rw [he]; congr 3; omega⟩

theorem seqLoop_spec (kp : Bytes) (kv : List KV)
    (hp : ∀ e ∈ kv, kp.isPrefixOf e.1 = true → ∃ i, parseIntDec (e.1.drop kp.length) = some i) :
    ∃ es rest, seqLoop kp kv = (es, rest, false) ∧ ∃ T, kv = T ++ rest ∧
      (∀ e ∈ T, kp.isPrefixOf e.1 = true) ∧ (∀ e ∈ rest.head?, kp.isPrefixOf e.1 = false) ∧
      es = T.filterMap fun e => (parseIntDec (e.1.drop kp.length)).map fun i => (i, e.2) := by
  induction kv with
  | nil => exact ⟨[], [], rfl, [], rfl, by simp, by simp, rfl⟩
  | cons e kv ih =>
    simp only [seqLoop]
    split
    · rename_i hpe
      obtain ⟨i, hi⟩ := hp e (List.mem_cons_self ..) hpe
      obtain ⟨es, rest, h1, T, h2, h3, h4, h5⟩ := ih fun f hf => hp f (List.mem_cons_of_mem _ hf)
      simp only [hi, h1]
      refine ⟨_, rest, rfl, e :: T, by rw [h2]; rfl, ?_, h4, ?_⟩
      · intro f hf
        rcases List.mem_cons.1 hf with rfl | hf
        · exact hpe
        · exact h3 f hf
      · simp only [List.filterMap_cons, hi, Option.map_some, h5]
    · rename_i hpe
      refine ⟨[], e :: kv, rfl, [], rfl, by simp, ?_, rfl⟩
      intro f hf
      simp only [List.head?_cons, Option.mem_def, Option.some.injEq] at hf
      subst hf
      exact Bool.eq_false_iff.2 hpe

theorem storeElems_spec (elem : ScalarTy) (xs : List Scalar) (es : List (Int × Bytes))
    (he : ∀ e ∈ es, ∃ (j : Nat) (x : Scalar), xs[j]? = some x ∧ e.1 = (j : Int) ∧ parseScalar elem e.2 = some x)
    (ys : List Scalar) (hl : ys.length = xs.length) :
    ∃ zs, storeElems elem es ys = some (zs, false) ∧ zs.length = xs.length ∧
      ∀ j : Nat, zs[j]? = if ∃ e ∈ es, e.1 = (j : Int) then xs[j]? else ys[j]? := by
  induction es generalizing ys with
  | nil => exact ⟨ys, rfl, hl, by simp⟩
  | cons e es ih =>
    obtain ⟨j, x, hx, hj, hpx⟩ := he e (List.mem_cons_self ..)
    have hjl : j < xs.length := (List.getElem?_eq_some_iff.1 hx).1
    simp only [storeElems, hpx]
    rw [if_pos ⟨by omega, by omega⟩]
    obtain ⟨zs, h1, h2, h3⟩ := ih (fun f hf => he f (List.mem_cons_of_mem _ hf)) (ys.set e.1.toNat x) (by simpa using hl)
    refine ⟨zs, h1, h2, ?_⟩
    intro i
    rw [h3 i]
    by_cases hes : ∃ e ∈ es, e.1 = (i : Int)
    · obtain ⟨f, hf, hfi⟩ := hes
      rw [if_pos ⟨f, hf, hfi⟩, if_pos ⟨f, List.mem_cons_of_mem _ hf, hfi⟩]
    · rw [if_neg hes]
      have ht : e.1.toNat = j := by omega
      rw [ht, List.getElem?_set]
      by_cases hij : j = i
      · subst hij
        rw [if_pos rfl, if_pos (by omega), if_pos ⟨e, List.mem_cons_self .., hj⟩, hx]
      · rw [if_neg hij, if_neg]
        rintro ⟨f, hf, hfi⟩
        rcases List.mem_cons.1 hf with rfl | hf
        · omega
        · exact hes ⟨f, hf, hfi⟩

theorem maxIndex_spec (es : List (Int × Bytes)) (n : Nat) (h1 : ∀ e ∈ es, e.1 ≤ n) (h2 : ∃ e ∈ es, e.1 = n) :
    maxIndex es = n := by
  have hle : ∀ l : List (Int × Bytes), (∀ e ∈ l, e.1 ≤ n) → maxIndex l ≤ n := by
    intro l
    induction l with
    | nil => intro _; simp only [maxIndex]; omega
    | cons e l ih =>
      intro h
      have a := h e (List.mem_cons_self ..)
      have b := ih fun f hf => h f (List.mem_cons_of_mem _ hf)
      simp only [maxIndex]; omega
  have hge : ∀ l : List (Int × Bytes), (∃ e ∈ l, e.1 = n) → (n : Int) ≤ maxIndex l := by
    intro l
    induction l with
    | nil => rintro ⟨e, he, _⟩; simp at he
    | cons e l ih =>
      rintro ⟨f, hf, hfn⟩
      simp only [maxIndex]
      rcases List.mem_cons.1 hf with rfl | hf
      · omega
      · have := ih ⟨f, hf, hfn⟩; omega
  have := hle es h1
  have := hge es h2
  omega

theorem decodes_seq (isSlice : Bool) (elem : ScalarTy) (xs : List Scalar) (hne : xs ≠ [])
    (hlen : xs.length < 2 ^ 63) (hh : ∀ x ∈ xs, elem.holds x = true) (P : Bytes) (hP : P ≠ []) (v0 : GVal)
    (hv0 : isSlice = false → v0.elems.length = xs.length) :
    Decodes (unflattenSeq isSlice elem) P v0 (.seq xs) (flattenSeq P 0 xs) [P] := by
  intro kv hs hin hfor
  have hkey : ∀ e ∈ flattenSeq P 0 xs, ∃ (j : Nat) (x : Scalar), xs[j]? = some x ∧ j < xs.length ∧
      e = (P ++ [46] ++ formatInt j, x.text) := by
    intro e he
    obtain ⟨j, x, hx, rfl⟩ := mem_flattenSeq.1 he
    exact ⟨j, x, hx, (List.getElem?_eq_some_iff.1 hx).1, by simp [nest, hP]⟩
  have hown : ∀ e ∈ kv, clash P e.1 = true → e ∈ flattenSeq P 0 xs := by
    intro e he hc
    rcases hfor e he with h | h
    · exact h
    · rw [h P (List.mem_singleton.2 rfl)] at hc; exact absurd hc (by decide)
  have hdotclash : ∀ g : Bytes, (P ++ [46]).isPrefixOf g = true → clash P g = true := by
    intro g hg
    obtain ⟨r, rfl⟩ := isPrefixOf_append.1 hg
    rw [List.append_assoc]; exact clash_dot _ _
  have hpre : ∀ e ∈ flattenSeq P 0 xs, (P ++ [46]).isPrefixOf e.1 = true := by
    intro e he
    obtain ⟨j, x, _, _, rfl⟩ := hkey e he
    exact isPrefixOf_append.2 ⟨_, rfl⟩
  -- a first element exists
  obtain ⟨x0, hx0⟩ : ∃ x0, xs[0]? = some x0 := by
    cases xs with
    | nil => exact absurd rfl hne
    | cons a l => exact ⟨a, rfl⟩
  have hf0 : (P ++ [46] ++ formatInt (0 : Nat), x0.text) ∈ flattenSeq P 0 xs :=
    mem_flattenSeq.2 ⟨0, x0, hx0, by simp [nest, hP]⟩
  have hd : ∀ e ∈ flattenSeq P 0 xs, e ∈ dropUntil P kv := fun e he =>
    mem_dropUntil (hin e he) (clash_prefix (hdotclash _ (hpre e he)))
  have hsuf := dropUntil_suffix P kv
  unfold unflattenSeq
  cases hdu : dropUntil P kv with
  | nil => have := hd _ hf0; rw [hdu] at this; simp at this
  | cons e0 rest0 =>
    rw [hdu] at hsuf
    have hd' : ∀ e ∈ flattenSeq P 0 xs, e ∈ e0 :: rest0 := fun e he => by rw [← hdu]; exact hd e he
    have hsd := sorted_suffix hsuf hs
    have he0kv : e0 ∈ kv := hsuf.subset (List.mem_cons_self ..)
    -- the first remaining pair is one of the elements
    have he0 : e0 ∈ flattenSeq P 0 xs := by
      by_cases hc : clash P e0.1 = true
      · exact hown e0 he0kv hc
      · exfalso
        obtain ⟨r, hr⟩ := isPrefixOf_append.1 (dropUntil_head hdu)
        have hlt : (P ++ [46] ++ formatInt (0 : Nat)) < e0.1 := by
          rw [hr, List.append_assoc, blt_append_left]
          cases r with
          | nil => rw [hr, List.append_nil] at hc; exact absurd (clash_refl P) hc
          | cons b r =>
            have hb : ¬ b ≤ 46 := by
              intro hb
              apply hc
              have := clash_append_left P [] (b :: r)
              rw [List.append_nil] at this
              rw [hr, this]
              simp [clash, hb]
            rw [List.cons_append, List.cons_lt_cons_iff]
            left
            rw [UInt8.le_iff_toNat_le] at hb
            rw [UInt8.lt_iff_toNat_lt]
            omega
        rcases List.mem_cons.1 (hd' _ hf0) with h | h
        · rw [← h] at hlt; exact blt_irrefl _ hlt
        · exact blt_irrefl _ (blt_trans hlt ((List.pairwise_cons.1 hsd).1 _ h))
    have hidx : ∀ e ∈ e0 :: rest0, (P ++ [46]).isPrefixOf e.1 = true →
        ∃ i, parseIntDec (e.1.drop (P ++ [46]).length) = some i := by
      intro e he hp
      obtain ⟨j, x, _, hj, rfl⟩ := hkey e (hown e (hsuf.subset he) (hdotclash _ hp))
      exact ⟨j, by rw [List.drop_left]; exact parseIntDec_formatInt j (by omega) (by omega)⟩
    obtain ⟨es, rest, h1, T, h2, h3, h4, h5⟩ := seqLoop_spec (P ++ [46]) (e0 :: rest0) hidx
    -- every element of the sequence is in `T`
    have hT : ∀ e ∈ flattenSeq P 0 xs, e ∈ T := by
      intro e he
      have hm := hd' e he
      rw [h2] at hm
      rcases List.mem_append.1 hm with h | h
      · exact h
      · exfalso
        cases hrest : rest with
        | nil => rw [hrest] at h; simp at h
        | cons r0 rs =>
          have hr0 : (P ++ [46]).isPrefixOf r0.1 = false := h4 r0 (by rw [hrest]; simp)
          rw [hrest] at h h2
          have hs2 := hsd
          rw [h2] at hs2
          have hap := List.pairwise_append.1 hs2
          rcases List.mem_cons.1 h with hh | hh
          · rw [← hh, hpre e he] at hr0; exact absurd hr0 (by decide)
          · have hlt2 := (List.pairwise_cons.1 hap.2.1).1 e hh
            have he0T : e0.1 < r0.1 := by
              cases T with
              | nil =>
                simp only [List.nil_append, List.cons.injEq] at h2
                rw [← h2.1, hpre e0 he0] at hr0; exact absurd hr0 (by decide)
              | cons t0 ts =>
                simp only [List.cons_append, List.cons.injEq] at h2
                rw [h2.1]
                exact hap.2.2 t0 (List.mem_cons_self ..) r0 (List.mem_cons_self ..)
            rw [prefix_between (hpre e0 he0) (hpre e he) he0T hlt2] at hr0
            exact absurd hr0 (by decide)
    have hTown : ∀ e ∈ T, e ∈ flattenSeq P 0 xs := by
      intro e he
      refine hown e (hsuf.subset ?_) (hdotclash _ (h3 e he))
      rw [h2]; exact List.mem_append_left _ he
    have hes : ∀ e ∈ es, ∃ (j : Nat) (x : Scalar), xs[j]? = some x ∧ e.1 = (j : Int) ∧ parseScalar elem e.2 = some x := by
      intro e he
      rw [h5] at he
      obtain ⟨f, hf, hfe⟩ := List.mem_filterMap.1 he
      obtain ⟨j, x, hx, hj, rfl⟩ := hkey f (hTown f hf)
      rw [List.drop_left, parseIntDec_formatInt j (by omega) (by omega)] at hfe
      simp only [Option.map_some, Option.some.injEq] at hfe
      subst hfe
      exact ⟨j, x, hx, rfl, parseScalar_text (hh x (List.mem_of_getElem? hx))⟩
    have hall : ∀ j : Nat, j < xs.length → ∃ e ∈ es, e.1 = (j : Int) := by
      intro j hj
      obtain ⟨x, hx⟩ : ∃ x, xs[j]? = some x := ⟨_, List.getElem?_eq_getElem hj⟩
      have hm : (P ++ [46] ++ formatInt j, x.text) ∈ flattenSeq P 0 xs :=
        mem_flattenSeq.2 ⟨j, x, hx, by simp [nest, hP]⟩
      refine ⟨(j, x.text), ?_, rfl⟩
      rw [h5]
      refine List.mem_filterMap.2 ⟨_, hT _ hm, ?_⟩
      simp only
      rw [List.drop_left, parseIntDec_formatInt j (by omega) (by omega)]
      rfl
    have hpos : 0 < xs.length := List.length_pos_iff.2 hne
    have hmax : maxIndex es = ((xs.length - 1 : Nat) : Int) := by
      refine maxIndex_spec es (xs.length - 1) ?_ (hall _ (by omega))
      intro e he
      obtain ⟨j, x, hx, hj, _⟩ := hes e he
      have := (List.getElem?_eq_some_iff.1 hx).1
      omega
    have hyl : (if isSlice then List.replicate ((maxIndex es).toNat + 1) elem.zero else v0.elems).length = xs.length := by
      cases isSlice with
      | true => simp only [if_true, List.length_replicate]; omega
      | false => simp only [Bool.false_eq_true, if_false]; exact hv0 rfl
    obtain ⟨zs, hz1, hz2, hz3⟩ := storeElems_spec elem xs es hes _ hyl
    have hzx : zs = xs := by
      apply List.ext_getElem? 
      intro j
      rw [hz3 j]
      by_cases hj : j < xs.length
      · rw [if_pos (hall j hj)]
      · split
        · rfl
        · rw [List.getElem?_eq_none (by omega), List.getElem?_eq_none (by omega)]
    subst hzx
    simp only [h1, hz1, Bool.false_eq_true, if_false]
    have hrs : rest <:+ e0 :: rest0 := ⟨T, h2.symm⟩
    refine ⟨_, rest, rfl, .seq _, hrs.trans hsuf, ?_⟩
    intro e he hk
    have hm := mem_suffix_of_lt hs hsuf (List.mem_cons_self ..) he (hk e0 he0)
    rw [h2] at hm
    rcases List.mem_append.1 hm with h | h
    · exact absurd (hk e (hTown e h)) (blt_irrefl _)
    · exact h

end Appdash
