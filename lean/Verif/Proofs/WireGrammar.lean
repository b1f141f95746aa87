import Verif.Spec.WireGrammar
import Verif.Proofs.Wire
import Verif.Proofs.BitsSpec

/-! # The decoder of the collector protocol accepts the language of the protocol -/

namespace Appdash
open Spec

theorem base128_length {s : Bytes} {n : Nat} (h : Base128 s n) : 0 < s.length := by cases h <;> simp

theorem isNumber_length {s : Bytes} {n : Nat} (h : IsNumber s n) : 0 < s.length := by
  obtain ⟨_, v, hv, _⟩ := h
  exact base128_length hv

theorem decVarintLoop_iff (k : Nat) (s r : Bytes) (v : Nat) :
    decVarintLoop k s = some (v, r) ↔ ∃ t, s = t ++ r ∧ Base128 t v ∧ t.length ≤ k := by
  induction k generalizing s v with
  | zero =>
    refine ⟨fun h => by simp [decVarintLoop] at h, ?_⟩
    rintro ⟨t, _, hb, hl⟩
    have := base128_length hb
    omega
  | succ k ih =>
    cases s with
    | nil =>
      refine ⟨fun h => by simp [decVarintLoop] at h, ?_⟩
      rintro ⟨t, ht, hb, hl⟩
      have := base128_length hb
      simp at ht
      simp [ht.1] at this
    | cons b s =>
      rw [decVarintLoop]
      by_cases hb : b.toNat < 128
      · rw [if_pos hb]
        constructor
        · intro h
          simp only [Option.some.injEq, Prod.mk.injEq] at h
          exact ⟨[b], by simp [h.2], h.1 ▸ .last b hb, by simp⟩
        · rintro ⟨t, ht, h, hl⟩
          cases h with
          | last c hc => simp at ht; simp [ht.1, ht.2]
          | more c t n hc ht' => simp at ht; rw [ht.1] at hb; omega
      · rw [if_neg hb]
        constructor
        · intro h
          split at h
          · simp at h
          · next v' r' hd =>
            simp only [Option.some.injEq, Prod.mk.injEq] at h
            obtain ⟨h1, h2⟩ := h
            subst h1; subst h2
            obtain ⟨t, ht, hb', hl⟩ := (ih _ _).1 hd
            exact ⟨b :: t, by simp [ht], .more b t _ (by omega) hb', by simp; omega⟩
        · rintro ⟨t, ht, h, hl⟩
          cases h with
          | last c hc => simp at ht; rw [ht.1] at hb; omega
          | more c t n hc ht' =>
            simp at ht
            have := (ih s n).2 ⟨t, ht.2, ht', by simpa using hl⟩
            rw [this, ht.1]

theorem decVarint_iff (s r : Bytes) (n : Nat) : decVarint s = some (n, r) ↔ ∃ t, s = t ++ r ∧ IsNumber t n := by
  rw [decVarint]
  constructor
  · intro h
    split at h
    · simp at h
    · next v r' hd =>
      simp only [Option.some.injEq, Prod.mk.injEq] at h
      obtain ⟨h1, h2⟩ := h
      subst h2
      obtain ⟨t, ht, hb, hl⟩ := (decVarintLoop_iff _ _ _ _).1 hd
      exact ⟨t, ht, hl, v, hb, h1.symm⟩
  · rintro ⟨t, ht, hl, v, hb, hn⟩
    rw [(decVarintLoop_iff 10 s r v).2 ⟨t, ht, hb, hl⟩, hn]

theorem decRawBytes_iff (s r b : Bytes) : decRawBytes s = some (b, r) ↔ ∃ t, s = t ++ r ∧ IsString t b := by
  rw [decRawBytes]
  constructor
  · intro h
    split at h
    · simp at h
    · next n r' hd =>
      obtain ⟨t, ht, hn⟩ := (decVarint_iff _ _ _).1 hd
      split at h
      · simp at h
      · next hc =>
        simp only [Option.some.injEq, Prod.mk.injEq] at h
        have hl : b.length = n := by rw [← h.1]; simp; omega
        refine ⟨t ++ b, ?_, t, rfl, hl ▸ hn, by omega⟩
        rw [ht, ← h.1, ← h.2, List.append_assoc, List.take_append_drop]
  · rintro ⟨t, ht, k, hk, hn, hl⟩
    rw [(decVarint_iff s (b ++ r) b.length).2 ⟨k, by simp [ht, hk], hn⟩]
    simp only
    rw [if_neg (by simp; omega)]
    simp

theorem decFixed64_iff (s r : Bytes) (v : UInt64) : decFixed64 s = some (v, r) ↔ s = lowFirst 8 v.toNat ++ r := by
  rw [← leBytes_eq]
  constructor
  · intro h
    rw [decFixed64] at h
    split at h
    · simp at h
    · next hl =>
      simp only [Option.some.injEq, Prod.mk.injEq] at h
      have h8 : (s.take 8).length = 8 := by simp; omega
      have hlt := leNat_lt (s.take 8)
      rw [h8] at hlt
      have hv : v.toNat = leNat (s.take 8) := by
        rw [← h.1]
        simp only [UInt64.toNat_ofNat']
        exact Nat.mod_eq_of_lt (by simpa using hlt)
      have := leBytes_leNat (s.take 8)
      rw [h8] at this
      rw [hv, this, ← h.2, List.take_append_drop]
  · rintro rfl
    exact decFixed64_enc v r

theorem skipPlain_sound {w : Nat} {s r : Bytes} (h : skipPlain w s = some r) : ∃ t, s = t ++ r ∧ IsAnything w t ∧ w ≠ 3 := by
  rw [skipPlain] at h
  split at h
  · next hw =>
    subst hw
    simp only [Option.map_eq_some_iff, Prod.exists] at h
    obtain ⟨n, r', hd, hr⟩ := h
    subst hr
    obtain ⟨t, ht, hn⟩ := (decVarint_iff _ _ _).1 hd
    exact ⟨t, ht, .number t n hn, by simp⟩
  · split at h
    · next hw =>
      subst hw
      split at h
      · simp at h
      · simp only [Option.some.injEq] at h
        exact ⟨s.take 8, by rw [← h, List.take_append_drop], .eight _ (by simp; omega), by simp⟩
    · split at h
      · next hw =>
        subst hw
        simp only [Option.map_eq_some_iff, Prod.exists] at h
        obtain ⟨b, r', hd, hr⟩ := h
        subst hr
        obtain ⟨t, ht, hn⟩ := (decRawBytes_iff _ _ _).1 hd
        exact ⟨t, ht, .string t b hn, by simp⟩
      · split at h
        · next hw =>
          subst hw
          split at h
          · simp at h
          · simp only [Option.some.injEq] at h
            exact ⟨s.take 4, by rw [← h, List.take_append_drop], .four _ (by simp; omega), by simp⟩
        · simp at h

theorem skipPlain_complete {w : Nat} {t : Bytes} (h : IsAnything w t) (hw : w ≠ 3) (r : Bytes) : skipPlain w (t ++ r) = some r := by
  cases h with
  | number _ n hn => simp [skipPlain, (decVarint_iff (t ++ r) r n).2 ⟨t, rfl, hn⟩]
  | eight _ hl => simp [skipPlain, hl, List.drop_append]
  | string _ b hb => simp [skipPlain, (decRawBytes_iff (t ++ r) r b).2 ⟨t, rfl, hb⟩]
  | groupEnd => simp at hw
  | groupField => simp at hw
  | four _ hl => simp [skipPlain, hl, List.drop_append]

/-- The contents of `d` groups, one after another. -/
def AreGroups : Nat → Bytes → Prop
  | 0, t => t = []
  | d + 1, t => ∃ a b, t = a ++ b ∧ IsAnything 3 a ∧ AreGroups d b

theorem skipGroup_sound (f d : Nat) (s r : Bytes) (h : skipGroup f d s = some r) : ∃ t, s = t ++ r ∧ AreGroups d t := by
  induction f generalizing d s with
  | zero =>
    cases d with
    | zero => simp [skipGroup] at h; exact ⟨[], by simp [h], rfl⟩
    | succ d => simp [skipGroup] at h
  | succ f ih =>
    cases d with
    | zero => simp [skipGroup] at h; exact ⟨[], by simp [h], rfl⟩
    | succ d =>
      rw [skipGroup] at h
      split at h
      · simp at h
      · next u r' hd =>
        obtain ⟨k, hk, hn⟩ := (decVarint_iff _ _ _).1 hd
        split at h
        · next hu =>
          obtain ⟨t, ht, hg⟩ := ih _ _ h
          exact ⟨k ++ t, by simp [hk, ht], k, t, rfl, .groupEnd k u hn hu, hg⟩
        · next hu =>
          split at h
          · next hu3 =>
            obtain ⟨t, ht, a, b, hab, ha, b', c, hbc, hb, hc⟩ := ih _ _ h
            refine ⟨k ++ t, by simp [hk, ht], k ++ a ++ b', c, by simp [hab, hbc], ?_, hc⟩
            exact .groupField k a b' u hn hu (hu3 ▸ ha) hb
          · split at h
            · simp at h
            · next r'' hp =>
              obtain ⟨p, hp1, hp2, _⟩ := skipPlain_sound hp
              obtain ⟨t, ht, a, b, hab, ha, hb⟩ := ih _ _ h
              exact ⟨k ++ p ++ t, by simp [hk, hp1, ht], k ++ p ++ a, b, by simp [hab], .groupField k p a u hn hu hp2 ha, hb⟩

theorem skipGroup_complete {w : Nat} {t : Bytes} (h : IsAnything w t) (hw : w = 3) :
    ∃ c, c ≤ t.length ∧ ∀ f d r, skipGroup (f + c) (d + 1) (t ++ r) = skipGroup f d r := by
  induction h with
  | number => simp at hw
  | eight => simp at hw
  | string => simp at hw
  | four => simp at hw
  | groupEnd k u hn hu =>
    refine ⟨1, isNumber_length hn, fun f d r => ?_⟩
    rw [skipGroup, (decVarint_iff (k ++ r) r u).2 ⟨k, rfl, hn⟩]
    simp [hu]
  | groupField k s r u hn hu hs hr ihs ihr =>
    obtain ⟨c, hc, ihr⟩ := ihr rfl
    have hk := isNumber_length hn
    by_cases h3 : u % 8 = 3
    · obtain ⟨c', hc', ihs⟩ := ihs h3
      refine ⟨c + c' + 1, by simp; omega, fun f d x => ?_⟩
      rw [show f + (c + c' + 1) = (f + c + c') + 1 by omega, skipGroup,
        (decVarint_iff (k ++ s ++ r ++ x) (s ++ (r ++ x)) u).2 ⟨k, by simp, hn⟩]
      simp only
      rw [if_neg hu, if_pos h3, ihs, ihr]
    · refine ⟨c + 1, by simp; omega, fun f d x => ?_⟩
      rw [show f + (c + 1) = (f + c) + 1 by omega, skipGroup,
        (decVarint_iff (k ++ s ++ r ++ x) (s ++ (r ++ x)) u).2 ⟨k, by simp, hn⟩]
      simp only
      rw [if_neg hu, if_neg h3, skipPlain_complete hs h3]
      simp only
      rw [ihr]

theorem skipField_iff (w : Nat) (s r : Bytes) : skipField w s = some r ↔ ∃ t, s = t ++ r ∧ IsAnything w t := by
  rw [skipField]
  by_cases hw : w = 3
  · rw [if_pos hw]
    subst hw
    constructor
    · intro h
      obtain ⟨t, ht, a, b, hab, ha, hb⟩ := skipGroup_sound _ _ _ _ h
      rw [AreGroups] at hb
      exact ⟨a, by rw [ht, hab, hb]; simp, ha⟩
    · rintro ⟨t, ht, h⟩
      obtain ⟨c, hc, hs⟩ := skipGroup_complete h rfl
      have hl : s.length + 1 = (s.length + 1 - c) + c := by rw [ht]; simp; omega
      rw [hl, ht, hs]
      simp [skipGroup]
  · rw [if_neg hw]
    constructor
    · intro h
      obtain ⟨t, ht, ha, _⟩ := skipPlain_sound h
      exact ⟨t, ht, ha⟩
    · rintro ⟨t, ht, h⟩
      rw [ht, skipPlain_complete h hw]

/-- The end of a message or group. -/
def endOf (isGroup : Bool) : Bytes → Prop := if isGroup then IsGroupEnd else (· = [])

section loop

variable {σ α : Type} {complete : σ → Bool} {field : σ → Nat → Nat → Bytes → Option (σ × Bytes)}
  {one : Nat → Nat → Bytes → α → Prop} {upd : σ → α → σ}

theorem decLoop_sound (isGroup : Bool)
    (hf : ∀ st n w s st' r, field st n w s = some (st', r) → ∃ t x, s = t ++ r ∧ one n w t x ∧ st' = upd st x)
    (f : Nat) (st st' : σ) (s r : Bytes) (h : decLoop isGroup complete field f st s = some (st', r)) :
    ∃ t xs, s = t ++ r ∧ AreFields one (endOf isGroup) t xs ∧ st' = xs.foldl upd st ∧ complete st' = true ∧ (isGroup = false → r = []) := by
  induction f generalizing st s with
  | zero => simp [decLoop] at h
  | succ f ih =>
    cases s with
    | nil =>
      rw [decLoop] at h
      split at h
      · next hc =>
        simp only [Option.some.injEq, Prod.mk.injEq] at h
        exact ⟨[], [], by simp [h.2], .done _ (by simp [endOf, hc.1]), by simp [h.1], h.1 ▸ hc.2, fun _ => h.2.symm⟩
      · simp at h
    | cons b s =>
      rw [decLoop] at h
      split at h
      · simp at h
      · next u r' hd =>
        obtain ⟨k, hk, hn⟩ := (decVarint_iff _ _ _).1 hd
        split at h
        · next hu =>
          split at h
          · next hc =>
            simp only [Option.some.injEq, Prod.mk.injEq] at h
            refine ⟨k, [], by rw [hk, h.2], .done _ ?_, by simp [h.1], h.1 ▸ hc.2, fun hg => by simp [hc.1] at hg⟩
            simp only [endOf, hc.1, if_true]
            exact ⟨u, hn, hu⟩
          · simp at h
        · next hu =>
          split at h
          · simp at h
          · next h0 =>
            split at h
            · simp at h
            · next st1 r1 hfd =>
              obtain ⟨t, x, ht, hx, hst⟩ := hf _ _ _ _ _ _ hfd
              obtain ⟨t', xs, ht', hxs, hst', hc, hr⟩ := ih _ _ h
              exact ⟨k ++ t ++ t', x :: xs, by simp [hk, ht, ht'], .field k t t' u x xs hn hu h0 hx hxs, by simp [hst', hst], hc, hr⟩

theorem decLoop_complete (isGroup : Bool)
    (hf : ∀ st n w t x r, one n w t x → field st n w (t ++ r) = some (upd st x, r))
    {t : Bytes} {xs : List α} (h : AreFields one (endOf isGroup) t xs) (f : Nat) (st : σ) (r : Bytes) (hfuel : t.length < f)
    (hc : complete (xs.foldl upd st) = true) (hr : isGroup = false → r = []) :
    decLoop isGroup complete field f st (t ++ r) = some (xs.foldl upd st, r) := by
  induction h generalizing f st with
  | done k hk =>
    cases isGroup with
    | false =>
      simp only [endOf, Bool.false_eq_true, if_false] at hk
      subst hk
      obtain rfl := hr rfl
      obtain ⟨f, rfl⟩ : ∃ g, f = g + 1 := ⟨f - 1, by simp at hfuel; omega⟩
      simp only [List.foldl_nil] at hc
      simp [decLoop, hc]
    | true =>
      simp only [endOf, if_true] at hk
      obtain ⟨u, hn, hu⟩ := hk
      obtain ⟨f, rfl⟩ : ∃ g, f = g + 1 := ⟨f - 1, by omega⟩
      have hl := isNumber_length hn
      obtain ⟨b, s, hbs⟩ : ∃ b s, k ++ r = b :: s := by
        cases k with
        | nil => simp at hl
        | cons b k => exact ⟨b, k ++ r, rfl⟩
      have hd := (decVarint_iff (k ++ r) r u).2 ⟨k, rfl, hn⟩
      simp only [List.foldl_nil] at hc
      rw [hbs] at hd ⊢
      rw [decLoop, hd]
      simp [hu, hc]
  | field k s t u x xs hn hu h0 hx _ ih =>
    obtain ⟨f, rfl⟩ : ∃ g, f = g + 1 := ⟨f - 1, by omega⟩
    have hl := isNumber_length hn
    obtain ⟨b, s', hbs⟩ : ∃ b s', k ++ s ++ t ++ r = b :: s' := by
      cases k with
      | nil => simp at hl
      | cons b k => exact ⟨b, k ++ s ++ t ++ r, rfl⟩
    have hd := (decVarint_iff (k ++ s ++ t ++ r) (s ++ (t ++ r)) u).2 ⟨k, by simp, hn⟩
    rw [hbs] at hd ⊢
    rw [decLoop, hd]
    simp only
    rw [if_neg hu, if_neg h0, hf _ _ _ _ _ _ hx]
    exact ih f (upd st x) (by simp at hfuel; omega) hc

end loop

/-! ## The fields of the messages -/

/-- How the decoder's state changes with a field of SpanID. -/
def SpanAcc.add (st : SpanAcc) : SpanPiece → SpanAcc
  | .trace v => { st with val := { st.val with trace := some v }, seenTrace := true }
  | .span v => { st with val := { st.val with span := some v }, seenSpan := true }
  | .parent v => { st with val := { st.val with parent := some v } }
  | .other => st

/-- How the decoder's state changes with a field of Annotation. -/
def WAnnotation.add (st : WAnnotation) : AnnotationPiece → WAnnotation
  | .key b => { st with key := some b }
  | .value b => { st with value := some b }
  | .other => st

theorem spanField_sound (st : SpanAcc) (n w : Nat) (s : Bytes) (st' : SpanAcc) (r : Bytes) (h : spanField st n w s = some (st', r)) :
    ∃ t x, s = t ++ r ∧ IsSpanPiece n w t x ∧ st' = st.add x := by
  rw [spanField] at h
  split at h
  · next hn =>
    split at h
    · next hw =>
      split at h
      · simp at h
      · next v r' hd =>
        simp only [Option.some.injEq, Prod.mk.injEq] at h
        obtain ⟨h1, h2⟩ := h
        subst h2
        rw [decFixed64_iff] at hd
        rcases hn with rfl | rfl | rfl
        · exact ⟨_, .trace v, hd, .trace w v hw, by simp at h1; simp [← h1, SpanAcc.add]⟩
        · exact ⟨_, .span v, hd, .span w v hw, by simp at h1; simp [← h1, SpanAcc.add]⟩
        · exact ⟨_, .parent v, hd, .parent w v hw, by simp at h1; simp [← h1, SpanAcc.add]⟩
    · simp at h
  · next hn =>
    simp only [Option.map_eq_some_iff, Prod.mk.injEq] at h
    obtain ⟨r', hs, h1, h2⟩ := h
    subst h2
    obtain ⟨t, ht, ha⟩ := (skipField_iff _ _ _).1 hs
    exact ⟨t, .other, ht, .other n w t (by simpa using hn) ha, h1.symm⟩

theorem spanField_complete (st : SpanAcc) (n w : Nat) (t : Bytes) (x : SpanPiece) (r : Bytes) (h : IsSpanPiece n w t x) :
    spanField st n w (t ++ r) = some (st.add x, r) := by
  cases h with
  | trace w v hw => simp [spanField, hw, ← leBytes_eq, decFixed64_enc, SpanAcc.add]
  | span w v hw => simp [spanField, hw, ← leBytes_eq, decFixed64_enc, SpanAcc.add]
  | parent w v hw => simp [spanField, hw, ← leBytes_eq, decFixed64_enc, SpanAcc.add]
  | other _ _ _ hn ha =>
    rw [spanField, if_neg (by simpa using hn), (skipField_iff w (t ++ r) r).2 ⟨t, rfl, ha⟩]
    rfl

theorem annField_sound (st : WAnnotation) (n w : Nat) (s : Bytes) (st' : WAnnotation) (r : Bytes) (h : annField st n w s = some (st', r)) :
    ∃ t x, s = t ++ r ∧ IsAnnotationPiece n w t x ∧ st' = st.add x := by
  rw [annField] at h
  split at h
  · next hn =>
    split at h
    · next hw =>
      split at h
      · simp at h
      · next v r' hd =>
        simp only [Option.some.injEq, Prod.mk.injEq] at h
        obtain ⟨h1, h2⟩ := h
        subst h2
        obtain ⟨t, ht, hs⟩ := (decRawBytes_iff _ _ _).1 hd
        rcases hn with rfl | rfl
        · exact ⟨t, .key v, ht, .key w t v hw hs, by simp at h1; simp [← h1, WAnnotation.add]⟩
        · exact ⟨t, .value v, ht, .value w t v hw hs, by simp at h1; simp [← h1, WAnnotation.add]⟩
    · simp at h
  · next hn =>
    simp only [Option.map_eq_some_iff, Prod.mk.injEq] at h
    obtain ⟨r', hs, h1, h2⟩ := h
    subst h2
    obtain ⟨t, ht, ha⟩ := (skipField_iff _ _ _).1 hs
    exact ⟨t, .other, ht, .other n w t (by simpa using hn) ha, h1.symm⟩

theorem annField_complete (st : WAnnotation) (n w : Nat) (t : Bytes) (x : AnnotationPiece) (r : Bytes) (h : IsAnnotationPiece n w t x) :
    annField st n w (t ++ r) = some (st.add x, r) := by
  cases h with
  | key _ _ b hw hs => simp [annField, hw, (decRawBytes_iff (t ++ r) r b).2 ⟨t, rfl, hs⟩, WAnnotation.add]
  | value _ _ b hw hs => simp [annField, hw, (decRawBytes_iff (t ++ r) r b).2 ⟨t, rfl, hs⟩, WAnnotation.add]
  | other _ _ _ hn ha =>
    rw [annField, if_neg (by simpa using hn), (skipField_iff w (t ++ r) r).2 ⟨t, rfl, ha⟩]
    rfl

theorem lastGiven_cons {α β : Type} (f : α → Option β) (a : α) (l : List α) : lastGiven f (a :: l) = (lastGiven f l).or (f a) := by
  unfold lastGiven
  cases h : f a with
  | none => simp [List.filterMap_cons, h]
  | some b =>
    rw [List.filterMap_cons, h]
    simp only [List.getLast?_cons]
    cases (l.filterMap f).getLast? <;> rfl

theorem lastGiven_append {α β : Type} (f : α → Option β) (l m : List α) : lastGiven f (l ++ m) = (lastGiven f m).or (lastGiven f l) := by
  simp [lastGiven, List.getLast?_append]

theorem spanAcc_fold (ps : List SpanPiece) (st : SpanAcc) :
    ps.foldl SpanAcc.add st =
      { val := { trace := (lastGiven SpanPiece.trace? ps).or st.val.trace, span := (lastGiven SpanPiece.span? ps).or st.val.span,
                 parent := (lastGiven SpanPiece.parent? ps).or st.val.parent },
        seenTrace := (lastGiven SpanPiece.trace? ps).isSome || st.seenTrace, seenSpan := (lastGiven SpanPiece.span? ps).isSome || st.seenSpan } := by
  induction ps generalizing st with
  | nil => rfl
  | cons p ps ih =>
    rw [List.foldl_cons, ih, lastGiven_cons, lastGiven_cons, lastGiven_cons]
    cases p <;> simp [SpanAcc.add, SpanPiece.trace?, SpanPiece.span?, SpanPiece.parent?, Option.or_assoc, Option.isSome_or]

theorem wAnnotation_fold (ps : List AnnotationPiece) (st : WAnnotation) :
    ps.foldl WAnnotation.add st =
      { key := (lastGiven AnnotationPiece.key? ps).or st.key, value := (lastGiven AnnotationPiece.value? ps).or st.value } := by
  induction ps generalizing st with
  | nil => rfl
  | cons p ps ih =>
    rw [List.foldl_cons, ih, lastGiven_cons, lastGiven_cons]
    cases p <;> simp [WAnnotation.add, AnnotationPiece.key?, AnnotationPiece.value?, Option.or_assoc]

/-- How the decoder's state changes with a field of the packet. -/
def WPacket.add (st : WPacket) : PacketPiece → WPacket
  | .spanID ps => { st with spanid := some (ps.foldl SpanAcc.add { val := st.spanid.getD {} }).val }
  | .annotation ps => { st with annotation := st.annotation ++ [ps.foldl WAnnotation.add {}] }
  | .other => st

theorem packetField_sound (st : WPacket) (n w : Nat) (s : Bytes) (st' : WPacket) (r : Bytes) (h : packetField st n w s = some (st', r)) :
    ∃ t x, s = t ++ r ∧ IsPacketPiece n w t x ∧ st' = st.add x := by
  rw [packetField] at h
  split at h
  · next hn =>
    subst hn
    split at h
    · next hw =>
      subst hw
      split at h
      · simp at h
      · next a r' hd =>
        simp only [Option.some.injEq, Prod.mk.injEq] at h
        obtain ⟨h1, h2⟩ := h
        subst h2
        obtain ⟨t, xs, ht, hx, ha, hc, _⟩ := decLoop_sound true spanField_sound _ _ _ _ _ hd
        have ha' := ha
        rw [spanAcc_fold] at ha'
        rw [ha'] at hc
        simp only [Bool.or_false, Bool.and_eq_true, Option.isSome_iff_ne_none] at hc
        refine ⟨t, .spanID xs, ht, .spanID t xs (by simpa [endOf] using hx) hc.1 hc.2, ?_⟩
        rw [← h1, ha]
        rfl
    · simp at h
  · next hn1 =>
    split at h
    · next hn =>
      subst hn
      split at h
      · next hw =>
        subst hw
        split at h
        · simp at h
        · next a r' hd =>
          simp only [Option.some.injEq, Prod.mk.injEq] at h
          obtain ⟨h1, h2⟩ := h
          subst h2
          obtain ⟨t, xs, ht, hx, ha, hc, _⟩ := decLoop_sound true annField_sound _ _ _ _ _ hd
          have ha' := ha
          rw [wAnnotation_fold] at ha'
          rw [ha'] at hc
          simp only [Option.or_none, Option.isSome_iff_ne_none] at hc
          refine ⟨t, .annotation xs, ht, .annotation t xs (by simpa [endOf] using hx) hc, ?_⟩
          rw [← h1, ha]
          rfl
      · simp at h
    · next hn5 =>
      simp only [Option.map_eq_some_iff, Prod.mk.injEq] at h
      obtain ⟨r', hs, h1, h2⟩ := h
      subst h2
      obtain ⟨t, ht, ha⟩ := (skipField_iff _ _ _).1 hs
      exact ⟨t, .other, ht, .other n w t (by simp [hn1, hn5]) ha, h1.symm⟩

theorem packetField_complete (st : WPacket) (n w : Nat) (t : Bytes) (x : PacketPiece) (r : Bytes) (h : IsPacketPiece n w t x) :
    packetField st n w (t ++ r) = some (st.add x, r) := by
  cases h with
  | spanID _ ps hx ht hs =>
    have := decLoop_complete (complete := fun a : SpanAcc => a.seenTrace && a.seenSpan) true spanField_complete
      (t := t) (xs := ps) (by simpa [endOf] using hx) ((t ++ r).length + 1) { val := st.spanid.getD {} } r (by simp; omega)
      (by rw [spanAcc_fold]; simp [Option.isSome_iff_ne_none, ht, hs]) (by simp)
    rw [packetField, if_pos rfl, if_pos rfl, this]
    rfl
  | annotation _ ps hx hk =>
    have := decLoop_complete (complete := fun a : WAnnotation => a.key.isSome) true annField_complete
      (t := t) (xs := ps) (by simpa [endOf] using hx) ((t ++ r).length + 1) {} r (by simp; omega)
      (by rw [wAnnotation_fold]; simp [Option.isSome_iff_ne_none, hk]) (by simp)
    rw [packetField, if_neg (by decide), if_pos rfl, if_pos rfl, this]
    rfl
  | other _ _ _ hn ha =>
    simp at hn
    rw [packetField, if_neg hn.1, if_neg hn.2, (skipField_iff w (t ++ r) r).2 ⟨t, rfl, ha⟩]
    rfl

/-- What a packet's fields say about the span ID. -/
theorem wPacket_fold_span (ps : List PacketPiece) (st : WPacket) :
    (ps.foldl WPacket.add st).spanid.bind WSpanID.trace = (lastGiven SpanPiece.trace? (spanPieces ps)).or (st.spanid.bind WSpanID.trace) ∧
    (ps.foldl WPacket.add st).spanid.bind WSpanID.span = (lastGiven SpanPiece.span? (spanPieces ps)).or (st.spanid.bind WSpanID.span) ∧
    (ps.foldl WPacket.add st).spanid.bind WSpanID.parent = (lastGiven SpanPiece.parent? (spanPieces ps)).or (st.spanid.bind WSpanID.parent) := by
  induction ps generalizing st with
  | nil => exact ⟨rfl, rfl, rfl⟩
  | cons p ps ih =>
    rw [List.foldl_cons]
    obtain ⟨h1, h2, h3⟩ := ih (st.add p)
    rw [h1, h2, h3]
    cases p with
    | other => exact ⟨rfl, rfl, rfl⟩
    | annotation l => exact ⟨rfl, rfl, rfl⟩
    | spanID l =>
      rw [show spanPieces (.spanID l :: ps) = l ++ spanPieces ps from by simp [spanPieces]]
      rw [lastGiven_append, lastGiven_append, lastGiven_append]
      rcases st with ⟨_ | v, as⟩ <;> simp [WPacket.add, spanAcc_fold, Option.or_assoc]

/-- What a packet's fields say about the annotations. -/
theorem wPacket_fold_annotation (ps : List PacketPiece) (st : WPacket) :
    (ps.foldl WPacket.add st).annotation =
      st.annotation ++ (annotationGroups ps).map fun l => ⟨lastGiven AnnotationPiece.key? l, lastGiven AnnotationPiece.value? l⟩ := by
  induction ps generalizing st with
  | nil => simp [annotationGroups]
  | cons p ps ih =>
    rw [List.foldl_cons, ih]
    cases p with
    | other => rfl
    | annotation l => simp [WPacket.add, annotationGroups, wAnnotation_fold]
    | spanID l => rfl

theorem spanIDFromWire_iff (w : Option WSpanID) (id : SpanID) :
    spanIDFromWire w = some id ↔ w.bind WSpanID.trace = some id.trace ∧ w.bind WSpanID.span = some id.span ∧ w.bind WSpanID.parent = some id.parent := by
  rcases w with _ | ⟨_ | t, _ | s, _ | p⟩ <;> rcases id with ⟨a, b, c⟩ <;> simp [spanIDFromWire]

theorem annotationsFromWire_map (ls : List (List AnnotationPiece)) (h : ∀ l ∈ ls, lastGiven AnnotationPiece.key? l ≠ none) :
    annotationsFromWire (ls.map fun l => ⟨lastGiven AnnotationPiece.key? l, lastGiven AnnotationPiece.value? l⟩) =
      some (ls.map fun l => ⟨(lastGiven AnnotationPiece.key? l).getD [], lastGiven AnnotationPiece.value? l⟩) := by
  induction ls with
  | nil => rfl
  | cons l ls ih =>
    obtain ⟨k, hk⟩ := Option.ne_none_iff_exists'.1 (h l (List.mem_cons_self ..))
    have := ih fun l hl => h l (List.mem_cons_of_mem _ hl)
    simp [annotationsFromWire, hk, this]

theorem packet_keys {e : Bytes → Prop} {m : Bytes} {ps : List PacketPiece} (h : AreFields IsPacketPiece e m ps) :
    ∀ l ∈ annotationGroups ps, lastGiven AnnotationPiece.key? l ≠ none := by
  induction h with
  | done => simp [annotationGroups]
  | field k s r u x xs _ _ _ hx _ ih =>
    intro l hl
    rw [annotationGroups, List.filterMap_cons] at hl
    generalize hn : u / 8 = n at hx
    generalize hw : u % 8 = w at hx
    cases hx with
    | spanID _ ps => exact ih l hl
    | annotation _ ps _ hk =>
      rcases List.mem_cons.1 hl with rfl | hl
      · exact hk
      · exact ih l hl
    | other => exact ih l hl

theorem unmarshal_iff (m : Bytes) (id : SpanID) (as : List Annotation) :
    (∃ p, unmarshal m = some p ∧ spanIDFromWire p.spanid = some id ∧ annotationsFromWire p.annotation = some as) ↔ Says m id as := by
  constructor
  · rintro ⟨p, hp, hid, has⟩
    simp only [unmarshal, Option.map_eq_some_iff, Prod.exists] at hp
    obtain ⟨p', r, hd, rfl⟩ := hp
    obtain ⟨t, ps, ht, hps, hst, _, hr⟩ := decLoop_sound false packetField_sound _ _ _ _ _ hd
    obtain rfl := hr rfl
    rw [List.append_nil] at ht
    subst ht
    obtain ⟨h1, h2, h3⟩ := wPacket_fold_span ps {}
    have h4 := wPacket_fold_annotation ps {}
    rw [← hst] at h1 h2 h3 h4
    simp only [Option.bind_none, Option.or_none] at h1 h2 h3
    rw [spanIDFromWire_iff, h1, h2, h3] at hid
    refine ⟨ps, by simpa [endOf] using hps, hid.1, hid.2.1, hid.2.2, ?_⟩
    rw [h4, List.nil_append, annotationsFromWire_map _ (packet_keys hps)] at has
    exact (Option.some.inj has).symm
  · rintro ⟨ps, hps, ht, hs, hp, has⟩
    obtain ⟨h1, h2, h3⟩ := wPacket_fold_span ps {}
    have h4 := wPacket_fold_annotation ps {}
    simp only [Option.bind_none, Option.or_none] at h1 h2 h3
    have hid : spanIDFromWire (ps.foldl WPacket.add {}).spanid = some id := by
      rw [spanIDFromWire_iff, h1, h2, h3]
      exact ⟨ht, hs, hp⟩
    have hsome : (ps.foldl WPacket.add {}).spanid.isSome = true := by
      cases hc : (ps.foldl WPacket.add {}).spanid with
      | none => rw [hc] at hid; simp [spanIDFromWire] at hid
      | some _ => rfl
    have := decLoop_complete (complete := fun p : WPacket => p.spanid.isSome) false packetField_complete
      (t := m) (xs := ps) (by simpa [endOf] using hps) (m.length + 1) {} [] (by omega) hsome (fun _ => rfl)
    rw [List.append_nil] at this
    refine ⟨ps.foldl WPacket.add {}, by rw [unmarshal, this]; rfl, hid, ?_⟩
    rw [h4, List.nil_append, annotationsFromWire_map _ (packet_keys hps), has]

/-- A message at the beginning of a stream is read. -/
theorem readMsg_says_iff (s rest : Bytes) (id : SpanID) (as : List Annotation) :
    (∃ p, readMsg s = .ok p rest ∧ spanIDFromWire p.spanid = some id ∧ annotationsFromWire p.annotation = some as) ↔
      ∃ f m, s = f ++ rest ∧ IsFrame f m ∧ Says m id as := by
  have hm : maxMessageSize = 1024 * 1024 := rfl
  constructor
  · rintro ⟨p, hp, hid, has⟩
    rw [readMsg] at hp
    split at hp
    · simp at hp
    · simp at hp
    · next n r hr =>
      rw [readUvarint] at hr
      split at hr
      · simp at hr
      · split at hr
        · simp at hr
        · next v r' hd =>
          split at hr
          · simp at hr
          · simp only [ReadRes.ok.injEq] at hr
            obtain ⟨rfl, rfl⟩ := hr
            obtain ⟨k, hk, hb, hl⟩ := (decVarintLoop_iff _ _ _ _).1 hd
            split at hp
            · simp at hp
            · split at hp
              · split at hp <;> simp at hp
              · split at hp
                · simp at hp
                · next p' hu =>
                  simp only [ReadRes.ok.injEq] at hp
                  obtain ⟨rfl, rfl⟩ := hp
                  have hlen : (r'.take v).length = v := by simp; omega
                  refine ⟨k ++ r'.take v, r'.take v, by simp [hk], ⟨k, rfl, hl, hlen.symm ▸ hb, by omega⟩, ?_⟩
                  exact (unmarshal_iff _ _ _).1 ⟨_, hu, hid, has⟩
  · rintro ⟨f, m, hs, ⟨k, hf, hl, hb, hlen⟩, hsays⟩
    obtain ⟨p, hu, hid, has⟩ := (unmarshal_iff _ _ _).2 hsays
    refine ⟨p, ?_, hid, has⟩
    have hk := base128_length hb
    have hne : s ≠ [] := by rw [hs, hf]; intro h; simp at h; simp [h.1] at hk
    have hd := (decVarintLoop_iff 10 s (m ++ rest) m.length).2 ⟨k, by simp [hs, hf], hb, hl⟩
    rw [readMsg, readUvarint, if_neg hne, hd]
    simp only
    rw [if_neg (by omega)]
    simp only
    rw [if_neg (by omega), if_neg (by simp)]
    simp [hu]

end Appdash
