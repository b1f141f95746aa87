import Verif.Spec.EventPanic
import Verif.Proofs.EventRichRead

/-!
# Annotations that make reading panic
-/

namespace Appdash

theorem parseScalar_some (s : ScalarTy) : ∃ y x, parseScalar s y = some x := by
  cases s with
  | bool => exact ⟨b!"true", _, rfl⟩
  | int b => exact ⟨b!"0", _, rfl⟩
  | uint b => exact ⟨b!"0", _, rfl⟩
  | string => exact ⟨[], _, rfl⟩
  | time =>
    have h : ScalarTy.time.holds (.time .zero) = true := by decide
    exact ⟨_, _, parseScalar_text h⟩
  | float b =>
    have h := parseScalar_text (s := .float 64) (x := .float (.fin false 0)) (by decide +kernel)
    exact ⟨_, _, h⟩
  | duration => exact ⟨_, _, parseScalar_text (s := .duration) (x := .duration 0) (by decide)⟩

theorem parsePtr_no_error : ∀ t : RType, ∃ y, parsePtr t y ≠ .error
  | .scalar d s => by
    obtain ⟨y, x, h⟩ := parseScalar_some s
    refine ⟨y, ?_⟩
    simp only [parsePtr, h]
    cases d <;> simp
  | .named _ t => by
    cases t with
    | scalar d s =>
      obtain ⟨y, x, h⟩ := parseScalar_some s
      exact ⟨y, by simp [parsePtr, h]⟩
    | _ => exact ⟨[], by simp [parsePtr]⟩
  | .ptr t => by
    obtain ⟨y, h⟩ := parsePtr_no_error t
    refine ⟨y, ?_⟩
    simp only [parsePtr]
    cases hp : parsePtr t y <;> simp_all
  | .iface => ⟨[], by simp [parsePtr]⟩
  | .opaque => ⟨[], by simp [parsePtr]⟩
  | .struct _ _ => ⟨[], by simp [parsePtr]⟩
  | .map _ _ => ⟨[], by simp [parsePtr]⟩
  | .slice _ => ⟨[], by simp [parsePtr]⟩
  | .array _ _ => ⟨[], by simp [parsePtr]⟩

theorem parseElem_no_error (t : RType) : ∃ y, parseElem t y ≠ .error := by
  cases t with
  | scalar d s =>
    obtain ⟨y, x, h⟩ := parseScalar_some s
    refine ⟨y, ?_⟩
    simp only [parseElem, h]
    cases d <;> simp
  | named n t =>
    cases t with
    | scalar d s =>
      obtain ⟨y, x, h⟩ := parseScalar_some s
      exact ⟨y, by simp [parseElem, h]⟩
    | _ => exact ⟨[], by simp [parseElem]⟩
  | ptr t => exact parsePtr_no_error t
  | _ => exact ⟨[], by simp [parseElem]⟩

theorem storeR_negative (e : RType) {y : Bytes} (h : parseElem e y ≠ .error) (es : List (Int × Bytes)) (xs : List RVal) :
    storeR e ((-1, y) :: es) xs = none := by
  rw [storeR]
  cases hp : parseElem e y <;> simp_all

/-- A sequence whose first annotation has index -1. -/
theorem readSeq_negative (len : Option Nat) (e : RType) {pre y : Bytes} (h : parseElem e y ≠ .error) {kv rest : List KV}
    (hd : dropUntil pre kv = (pre ++ b!".-1", y) :: rest) (hr : ∀ a ∈ rest, (pre ++ [46]).isPrefixOf a.1 = false) :
    readSeq len e pre kv = none := by
  have hrest : seqLoop (pre ++ [46]) rest = ([], rest, false) := by
    cases rest with
    | nil => rfl
    | cons a rest => simp [seqLoop, hr a (List.mem_cons_self ..)]
  have hk : (pre ++ [46]).isPrefixOf (pre ++ b!".-1") = true := isPrefixOf_append.2 ⟨b!"-1", by simp⟩
  have hdrop : (pre ++ b!".-1").drop (pre ++ [46]).length = b!"-1" := by
    rw [show pre ++ b!".-1" = (pre ++ [46]) ++ b!"-1" by simp]
    exact List.drop_left ..
  have hint : parseIntDec b!"-1" = some (-1) := by rfl
  have hl : seqLoop (pre ++ [46]) ((pre ++ b!".-1", y) :: rest) = ([(-1, y)], rest, false) := by
    rw [seqLoop]
    simp only [hk, if_true, hdrop, hint, hrest]
  simp only [readSeq, hd, hl, Bool.false_eq_true, if_false, storeR_negative e h]

/-- A map of which there is no annotation. -/
theorem mapLoopR_absent (sk : Bool) (e : RType) (kp : Bytes) (kv : List KV) (hs : SortedKV kv)
    (h : ∀ a ∈ kv, kp.isPrefixOf a.1 = false) (m : AMap Bytes RVal) (n : Nat) : mapLoopR sk e kp kv m n = some (m, n, false) := by
  induction kv generalizing m n with
  | nil => rfl
  | cons a kv ih =>
    rw [mapLoopR]
    split
    · exact ih (List.pairwise_cons.1 hs).2 (fun b hb => h b (List.mem_cons_of_mem _ hb)) m n
    · rename_i hlt
      have hp := h a (List.mem_cons_self ..)
      rcases blt_tri kp a.1 with hk | hk | hk
      · simp [hk, hp]
      · rw [← hk] at hp
        rw [isPrefixOf_append.2 ⟨[], by simp⟩] at hp
        cases hp
      · exact absurd hk hlt

/-- Reading the fields up to one that panics. -/
theorem readFields_panics {A B : List (Bytes × Nat × (Bytes → List KV → ReadR))} {a : Bytes × Nat × (Bytes → List KV → ReadR)}
    (hL : SortedKV (A ++ a :: B)) {kv : List KV}
    (hA : ∀ b ∈ A, ∀ kv', kv' <:+ kv → (∀ e ∈ kv, ¬ e.1 < b.1 → e ∈ kv') → ∃ w kv'', b.2.2 b.1 kv' = some (w, kv'', false) ∧
      kv'' <:+ kv ∧ ∀ e ∈ kv, b.1 < e.1 → e ∈ kv'')
    (ha : ∀ kv', kv' <:+ kv → (∀ e ∈ kv, ¬ e.1 < a.1 → e ∈ kv') → a.2.2 a.1 kv' = none)
    (vs : List RVal) (kv' : List KV) (hsuf : kv' <:+ kv) (hin : ∀ b, (A ++ a :: B).head? = some b → ∀ e ∈ kv, ¬ e.1 < b.1 → e ∈ kv') :
    readFields [] (A ++ a :: B) vs kv' = none := by
  induction A generalizing vs kv' with
  | nil =>
    obtain ⟨n, i, f⟩ := a
    have hn : nest [] n = n := rfl
    simp only [List.nil_append, readFields, hn]
    have := ha kv' hsuf (hin _ rfl)
    simp only at this
    rw [this]
  | cons b A ih =>
    obtain ⟨n, i, f⟩ := b
    have hn : nest [] n = n := rfl
    obtain ⟨w, kv'', h1, h2, h3⟩ := hA _ (List.mem_cons_self ..) kv' hsuf (hin _ rfl)
    simp only [List.cons_append, readFields, hn]
    simp only at h1
    rw [h1]
    simp only [Bool.false_eq_true, if_false]
    rw [List.cons_append] at hL
    refine ih (List.pairwise_cons.1 hL).2 (fun b hb => hA b (List.mem_cons_of_mem _ hb)) _ _ h2 ?_
    intro b hb e he hlt
    have hm : b ∈ A ++ a :: B := List.mem_of_head? hb
    have hnb : n < b.1 := (List.pairwise_cons.1 hL).1 b hm
    apply h3 e he
    rcases blt_tri n e.1 with h | h | h
    · exact h
    · exact absurd (h ▸ hnb) hlt
    · exact absurd (blt_trans h hnb) hlt

/-! ## Names of fields and the annotation of the schema -/

theorem field_not_schema {n S : Bytes} (hn : FieldName n) {r : Bytes} (h : n ++ r = schemaPrefix ++ S) :
    ∃ c a, 46 < c ∧ r = c :: a := by
  rcases List.append_eq_append_iff.1 h with ⟨a, h1, h2⟩ | ⟨a, h1, -⟩
  · cases a with
    | nil =>
      rw [List.append_nil] at h1
      exact absurd rfl (hn.2 58 (h1 ▸ by decide)).2
    | cons c a =>
      refine ⟨c, a ++ S, ?_, h2⟩
      have : c ∈ schemaPrefix := h1 ▸ by simp
      have hall : ∀ b ∈ schemaPrefix, (46 : UInt8) < b := by decide
      exact hall c this
  · exact absurd rfl (hn.2 58 (h1 ▸ List.mem_append_left _ (by decide))).2

theorem field_dot_schema {n S : Bytes} (hn : FieldName n) : (n ++ [46]).isPrefixOf (schemaPrefix ++ S) = false := by
  rw [Bool.eq_false_iff]
  intro h
  obtain ⟨r, hr⟩ := isPrefixOf_append.1 h
  rw [List.append_assoc] at hr
  obtain ⟨c, a, hc, ha⟩ := field_not_schema hn hr.symm
  cases ha
  exact absurd hc (by decide)

theorem field_before_schema {n S : Bytes} (hn : FieldName n) (h : n.isPrefixOf (schemaPrefix ++ S) = true) :
    n ++ b!".-1" < schemaPrefix ++ S := by
  obtain ⟨r, hr⟩ := isPrefixOf_append.1 h
  obtain ⟨c, a, hc, rfl⟩ := field_not_schema hn hr.symm
  rw [hr, blt_append_left]
  exact List.cons_lt_cons_iff.2 (.inl hc)

theorem field_dot_field {m n : Bytes} (hn : FieldName n) : (m ++ [46]).isPrefixOf n = false := by
  rw [Bool.eq_false_iff]
  intro h
  obtain ⟨r, rfl⟩ := isPrefixOf_append.1 h
  exact absurd (hn.2 46 (by simp)).1 (by decide)

theorem field_dot_element {m n : Bytes} (hm : FieldName m) (hn : FieldName n) (h : (m ++ [46]).isPrefixOf (n ++ b!".-1") = true) : m = n := by
  obtain ⟨r, hr⟩ := isPrefixOf_append.1 h
  rw [List.append_assoc] at hr
  rcases List.append_eq_append_iff.1 hr with ⟨a, h1, h2⟩ | ⟨a, h1, h2⟩
  · cases a with
    | nil => simpa using h1
    | cons c a =>
      obtain ⟨rfl, -⟩ := List.cons.inj h2
      exact absurd (hm.2 46 (h1 ▸ by simp)).1 (by decide)
  · cases a with
    | nil => simpa using h1.symm
    | cons c a =>
      obtain ⟨rfl, -⟩ := List.cons.inj h2
      exact absurd (hn.2 46 (h1 ▸ by simp)).1 (by decide)

/-! ## The annotations -/

/-- A text that a scalar or a pointer to a scalar can be read from. -/
noncomputable def goodText : RType → Bytes
  | .scalar _ s => (parseScalar_some s).choose
  | .ptr (.scalar _ s) => (parseScalar_some s).choose
  | _ => []

theorem first_of {α : Type} {P : α → Prop} {l : List α} (h : ∃ a ∈ l, P a) : ∃ A a B, l = A ++ a :: B ∧ P a ∧ ∀ b ∈ A, ¬ P b := by
  induction l with
  | nil => obtain ⟨a, ha, -⟩ := h; cases ha
  | cons x l ih =>
    by_cases hx : P x
    · exact ⟨[], x, l, rfl, hx, by simp⟩
    · obtain ⟨a, ha, hp⟩ := h
      rcases List.mem_cons.1 ha with rfl | ha
      · exact absurd hp hx
      · obtain ⟨A, a, B, rfl, h1, h2⟩ := ih ⟨a, ha, hp⟩
        refine ⟨x :: A, a, B, rfl, h1, ?_⟩
        intro b hb
        rcases List.mem_cons.1 hb with rfl | hb
        · exact hx
        · exact h2 b hb

/-- A steady field is read and passed. -/
theorem steady_field_passes {t : RType} (hu : UsualField t) (he : ¬ Exposed t) {n : Bytes} {kv kv' : List KV} (hs : SortedKV kv)
    (hmem : (n, goodText t) ∈ kv) (hdot : ∀ e ∈ kv, (n ++ [46]).isPrefixOf e.1 = false)
    (hsuf : kv' <:+ kv) (hin : ∀ e ∈ kv, ¬ e.1 < n → e ∈ kv') :
    ∃ w kv'', unflattenR t n kv' = some (w, kv'', false) ∧ kv'' <:+ kv ∧ ∀ e ∈ kv, n < e.1 → e ∈ kv'' := by
  have hs' := sorted_suffix hsuf hs
  have hgt : ∀ e ∈ kv, n < e.1 → e ∈ kv' := fun e he hlt => hin e he fun h => blt_irrefl _ (blt_trans h hlt)
  cases hu with
  | scalar d s =>
    have hd : d = false := by simpa [Exposed] using he
    subst hd
    obtain ⟨rest, h1, h2, h3⟩ := dropUntil_exact hs' (hin _ hmem (blt_irrefl _))
    obtain ⟨x, hx⟩ := (parseScalar_some s).choose_spec
    refine ⟨.scalar x, rest, ?_, h2.trans hsuf, fun e he hlt => h3 e (hgt e he hlt) hlt⟩
    simp only [unflattenR, readScalar, h1]
    simp only [goodText, hx, Bool.false_eq_true, if_false]
  | pointer s =>
    obtain ⟨rest, h1, h2, h3⟩ := dropUntil_exact hs' (hin _ hmem (blt_irrefl _))
    obtain ⟨x, hx⟩ := (parseScalar_some s).choose_spec
    by_cases ht : s = .time
    · refine ⟨.nil, dropUntil n kv', ?_, (dropUntil_suffix _ _).trans hsuf, fun e he hlt => ?_⟩
      · simp only [unflattenR, h1, readPtr, ht, if_true]
      · rw [h1]
        exact List.mem_cons_of_mem _ (h3 e (hgt e he hlt) hlt)
    · refine ⟨.ptr (.scalar x), rest, ?_, h2.trans hsuf, fun e he hlt => h3 e (hgt e he hlt) hlt⟩
      simp only [unflattenR, h1, readPtr, ht, if_false, parsePtr]
      simp only [goodText, hx, Bool.false_eq_true, if_false]
  | map s =>
    refine ⟨.map [] [], kv', ?_, hsuf, hgt⟩
    rw [unflattenR]
    split
    · rename_i h; rw [h]
    · simp only [readMap]
      rw [mapLoopR_absent _ _ _ _ hs' fun a ha => hdot a (hsuf.subset ha)]
      rfl
  | _ => exact absurd trivial he

/-- The key of the annotation that makes an exposed field panic. -/
def panicKey (n : Bytes) : RType → Bytes
  | .slice _ => n ++ b!".-1"
  | .array _ _ => n ++ b!".-1"
  | _ => n

/-- Its text. -/
noncomputable def panicText : RType → Bytes
  | .slice e => (parseElem_no_error e).choose
  | .array _ e => (parseElem_no_error e).choose
  | t => goodText t

theorem exposed_field_panics {t : RType} (he : Exposed t) {n S : Bytes} (hn : FieldName n) {kv kv' : List KV} (hs : SortedKV kv)
    (hmem : (panicKey n t, panicText t) ∈ kv)
    (hkv : ∀ e ∈ kv, e.1 = schemaPrefix ++ S ∨ e.1 = panicKey n t ∨ e.1 < n ∧ FieldName e.1)
    (hsuf : kv' <:+ kv) (hin : ∀ e ∈ kv, ¬ e.1 < n → e ∈ kv') : unflattenR t n kv' = none := by
  have hs' := sorted_suffix hsuf hs
  have hseq : ∀ y, (n ++ b!".-1", y) ∈ kv → (∀ e ∈ kv, e.1 = schemaPrefix ++ S ∨ e.1 = n ++ b!".-1" ∨ e.1 < n ∧ FieldName e.1) →
      ∃ rest, dropUntil n kv' = (n ++ b!".-1", y) :: rest ∧ ∀ a ∈ rest, (n ++ [46]).isPrefixOf a.1 = false := by
    intro y hy hkv
    have hp : n.isPrefixOf (n ++ b!".-1") = true := isPrefixOf_append.2 ⟨_, rfl⟩
    have hm : (n ++ b!".-1", y) ∈ dropUntil n kv' := mem_dropUntil (hin _ hy (not_lt_prefix hp)) hp
    cases hd : dropUntil n kv' with
    | nil => rw [hd] at hm; cases hm
    | cons e rest =>
      have hs2 : SortedKV (e :: rest) := sorted_suffix (hd ▸ dropUntil_suffix n kv') hs'
      have hpe := dropUntil_head hd
      have hsub : ∀ a ∈ e :: rest, a ∈ kv := fun a ha => hsuf.subset ((dropUntil_suffix n kv').subset (hd ▸ ha))
      have hee : e = (n ++ b!".-1", y) := by
        rw [hd] at hm
        rcases List.mem_cons.1 hm with h | h
        · exact h.symm
        · have hlt := (List.pairwise_cons.1 hs2).1 _ h
          rcases hkv e (hsub e (List.mem_cons_self ..)) with q | q | q
          · rw [q] at hpe hlt
            exact absurd (blt_trans hlt (field_before_schema hn hpe)) (blt_irrefl _)
          · rw [q] at hlt
            exact absurd hlt (blt_irrefl _)
          · exact absurd q.1 (not_lt_prefix hpe)
      subst hee
      refine ⟨rest, rfl, fun a ha => ?_⟩
      rcases hkv a (hsub a (List.mem_cons_of_mem _ ha)) with q | q | q
      · rw [q]; exact field_dot_schema hn
      · have hlt := (List.pairwise_cons.1 hs2).1 _ ha
        rw [q] at hlt
        exact absurd hlt (blt_irrefl _)
      · exact field_dot_field q.2
  cases t with
  | scalar d s =>
    have hd : d = true := he
    subst hd
    obtain ⟨rest, h1, -, -⟩ := dropUntil_exact hs' (hin _ hmem (blt_irrefl _))
    obtain ⟨x, hx⟩ := (parseScalar_some s).choose_spec
    simp only [panicKey, panicText] at h1
    simp only [unflattenR, readScalar, h1]
    simp only [goodText, hx, if_true]
  | iface =>
    obtain ⟨rest, h1, -, -⟩ := dropUntil_exact hs' (hin _ hmem (blt_irrefl _))
    simp only [panicKey] at h1
    simp only [unflattenR, h1]
  | slice e =>
    obtain ⟨rest, h1, h2⟩ := hseq _ hmem hkv
    rw [unflattenR]
    exact readSeq_negative none e (parseElem_no_error e).choose_spec h1 h2
  | array k e =>
    obtain ⟨rest, h1, h2⟩ := hseq _ hmem hkv
    rw [unflattenR]
    exact readSeq_negative (some k) e (parseElem_no_error e).choose_spec h1 h2
  | _ => exact he.elim

/-- **The converse of C104's partial theorem**: an exposed field can be made to panic. -/
theorem exposed_panics (E : RichEvent) {ns : List Bytes} {ts : List RType} (ht : E.type = .struct ns ts) (hlen : ns.length = ts.length)
    (hn : ns.Nodup) (hid : ∀ n ∈ ns, FieldName n) (hf : ∀ t ∈ ts, UsualField t) (hx : ∃ t ∈ ts, Exposed t) :
    ∃ as, unmarshalR E as = none := by
  have hL : SortedKV (sortKV (fieldFnsR ns ts 0)) := sorted_sortKV (by rw [fieldFnsR_names ns _ hlen]; exact hn)
  have hex : ∃ a ∈ sortKV (fieldFnsR ns ts 0), ∃ (j : Nat) (t : RType), ns[j]? = some a.1 ∧ ts[j]? = some t ∧ a.2.2 = unflattenR t ∧ Exposed t := by
    obtain ⟨t, htm, he⟩ := hx
    obtain ⟨j, hj⟩ := List.mem_iff_getElem?.1 htm
    have hjl := (List.getElem?_eq_some_iff.1 hj).1
    refine ⟨(ns[j]'(by omega), 0 + j, unflattenR t), mem_sortKV.2 (mem_fieldFnsR.2 ⟨j, t, by simp, hj, rfl, rfl⟩), j, t, by simp, hj, rfl, he⟩
  obtain ⟨A, a, B, hsplit, ⟨j, t, hj1, hj2, hj3, he⟩, hA⟩ := first_of hex
  have hnj : a.1 ∈ ns := List.mem_of_getElem? hj1
  have han := hid _ hnj
  obtain ⟨as, has⟩ : ∃ as : List Annotation, as = schemaMarker E.schema :: annotationOf (panicKey a.1 t, panicText t) ::
    ((ns.zip ts).filter fun p => decide (p.1 < a.1)).map fun p => annotationOf (p.1, goodText p.2) := ⟨_, rfl⟩
  refine ⟨as, ?_⟩
  have hzip : ∀ p ∈ ns.zip ts, p.1 ∈ ns ∧ ∃ i : Nat, ns[i]? = some p.1 ∧ ts[i]? = some p.2 := by
    intro p hp
    obtain ⟨i, hi⟩ := List.mem_iff_getElem?.1 hp
    rw [List.getElem?_zip_eq_some] at hi
    exact ⟨List.mem_of_getElem? hi.1, i, hi⟩
  have hinj : ∀ p ∈ ns.zip ts, ∀ q ∈ ns.zip ts, p.1 = q.1 → p = q := by
    intro p hp q hq h
    obtain ⟨-, i, h1, h2⟩ := hzip p hp
    obtain ⟨-, k, h3, h4⟩ := hzip q hq
    have : i = k := by
      have hi := (List.getElem?_eq_some_iff.1 h1).1
      have hk := (List.getElem?_eq_some_iff.1 h3).1
      exact (List.getElem_inj hn).1 (by
        rw [(List.getElem?_eq_some_iff.1 h1).2, (List.getElem?_eq_some_iff.1 h3).2, h])
    subst this
    rw [h2] at h4
    exact Prod.ext h (Option.some.inj h4)
  have hpk : ∀ m, FieldName m → m < a.1 → panicKey a.1 t ≠ m := by
    intro m hm hlt h
    have hdot : ∀ r : Bytes, a.1 ++ 46 :: r ≠ m := fun r h => absurd (hm.2 46 (h ▸ by simp)).1 (by decide)
    cases t <;> simp only [panicKey] at h <;> first | exact hdot _ h | exact blt_irrefl _ (h ▸ hlt)
  have hps : panicKey a.1 t ≠ schemaPrefix ++ E.schema := by
    have h1 : a.1 ≠ schemaPrefix ++ E.schema := fun h => by
      obtain ⟨c, x, -, hx⟩ := field_not_schema (r := []) han (by simpa using h)
      cases hx
    have h2 : a.1 ++ b!".-1" ≠ schemaPrefix ++ E.schema := fun h => by
      obtain ⟨c, x, hc, hx⟩ := field_not_schema han h
      obtain ⟨rfl, -⟩ := List.cons.inj hx
      exact absurd hc (by decide)
    cases t <;> simp only [panicKey] <;> assumption
  have hfs : ∀ m, FieldName m → m ≠ schemaPrefix ++ E.schema := fun m hm h => by
    obtain ⟨c, x, -, hx⟩ := field_not_schema (r := []) hm (by simpa using h)
    cases hx
  have hall : ∀ b ∈ as, b.key = schemaPrefix ++ E.schema ∨ b = annotationOf (panicKey a.1 t, panicText t) ∨
      ∃ p ∈ ns.zip ts, p.1 < a.1 ∧ b = annotationOf (p.1, goodText p.2) := by
    intro b hb
    rw [has] at hb
    rcases List.mem_cons.1 hb with rfl | hb
    · exact .inl rfl
    · rcases List.mem_cons.1 hb with rfl | hb
      · exact .inr (.inl rfl)
      · obtain ⟨p, hp, rfl⟩ := List.mem_map.1 hb
        rw [List.mem_filter] at hp
        exact .inr (.inr ⟨p, hp.1, by simpa using hp.2, rfl⟩)
  have hsorted := mapToKVs_sorted as
  have hmem : (panicKey a.1 t, panicText t) ∈ mapToKVs (stringMap as) := by
    refine annotation_mapToKVs (a := annotationOf (panicKey a.1 t, panicText t)) (by rw [has]; simp) ?_
    intro b hb hk
    rcases hall b hb with h | h | ⟨p, hp, hlt, rfl⟩
    · exact absurd (hk.symm.trans h) hps
    · rw [h]
    · exact absurd hk.symm (hpk _ (hid _ (hzip p hp).1) hlt)
  have hother : ∀ p ∈ ns.zip ts, p.1 < a.1 → (p.1, goodText p.2) ∈ mapToKVs (stringMap as) := by
    intro p hp hlt
    refine annotation_mapToKVs (a := annotationOf (p.1, goodText p.2)) ?_ ?_
    · rw [has]
      refine List.mem_cons_of_mem _ (List.mem_cons_of_mem _ (List.mem_map.2 ⟨p, List.mem_filter.2 ⟨hp, by simpa using hlt⟩, rfl⟩))
    · intro b hb hk
      rcases hall b hb with h | h | ⟨q, hq, hlt', rfl⟩
      · exact absurd (hk.symm.trans h) (hfs _ (hid _ (hzip p hp).1))
      · rw [h] at hk
        exact absurd hk (hpk _ (hid _ (hzip p hp).1) hlt)
      · rw [hinj q hq p hp hk]
  have hkeys : ∀ e ∈ mapToKVs (stringMap as), e.1 = schemaPrefix ++ E.schema ∨ e.1 = panicKey a.1 t ∨ e.1 < a.1 ∧ FieldName e.1 := by
    intro e hm
    obtain ⟨b, hb, h1, -⟩ := mapToKVs_annotation hm
    rcases hall b hb with h | h | ⟨p, hp, hlt, rfl⟩
    · exact .inl (h1.symm.trans h)
    · rw [h] at h1; exact .inr (.inl h1.symm)
    · exact .inr (.inr (h1 ▸ ⟨hlt, hid _ (hzip p hp).1⟩))
  have hsch : (schemas as).contains E.schema = true := by
    rw [List.contains_iff_mem, mem_schemas]
    exact ⟨schemaMarker E.schema, by rw [has]; simp, rfl⟩
  obtain ⟨kv, hK⟩ : ∃ kv, kv = mapToKVs (stringMap as) := ⟨_, rfl⟩
  rw [← hK] at hsorted hmem hother hkeys
  have hrd : readFields [] (sortKV (fieldFnsR ns ts 0)) (zerosR ts) kv = none := by
    rw [hsplit] at hL ⊢
    refine readFields_panics hL ?_ ?_ _ kv (List.suffix_refl _) fun _ _ e he _ => he
    · intro b hb kv' hsuf hin
      have hbL : b ∈ sortKV (fieldFnsR ns ts 0) := by rw [hsplit]; simp [hb]
      obtain ⟨i, t', h1, h2, h3, h4⟩ := mem_fieldFnsR.1 (mem_sortKV.1 hbL)
      have hlt : b.1 < a.1 := (List.pairwise_append.1 hL).2.2 b hb a (List.mem_cons_self ..)
      have hbn := hid _ (List.mem_of_getElem? h1)
      rw [h4]
      refine steady_field_passes (hf _ (List.mem_of_getElem? h2)) (fun hex => hA b hb ⟨i, t', h1, h2, h4, hex⟩) hsorted ?_ ?_ hsuf hin
      · have hp : (b.1, t') ∈ ns.zip ts := List.mem_of_getElem? (i := i) (by simp [List.getElem?_zip_eq_some, h1, h2])
        exact hother _ hp hlt
      · intro e hm
        rcases hkeys e hm with q | q | q
        · rw [q]; exact field_dot_schema hbn
        · rw [q, Bool.eq_false_iff]
          intro h
          have hdot : (b.1 ++ [46]).isPrefixOf a.1 = true → False := fun h => by
            rw [field_dot_field han] at h; cases h
          have hel : (b.1 ++ [46]).isPrefixOf (a.1 ++ b!".-1") = true → False := fun h =>
            blt_irrefl _ (field_dot_element hbn han h ▸ hlt)
          cases t <;> simp only [panicKey] at h <;> first | exact hel h | exact hdot h
        · exact field_dot_field q.2
    · intro kv' hsuf hin
      rw [hj3]
      exact exposed_field_panics he han hsorted hmem hkeys hsuf hin
  have hu : unflattenR (.struct ns ts) [] kv = none := by
    cases kv with
    | nil => cases hmem
    | cons e kv => simp only [unflattenR, dropUntil_nil_pre, hrd]
  simp only [unmarshalR, hsch, Bool.true_eq_false, if_false, ht, ← hK, hu, Option.map_none]

end Appdash
