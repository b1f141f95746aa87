import Mathlib.Data.List.Forall2
import Verif.Spec.Http
import Verif.Proofs.Event
import Verif.Properties.Identifiers

/-!
# Lemmas about package httptrace
-/

namespace Appdash

theorem canonical_spanID : canonicalKey headerSpanID = b!"Span-Id" := by decide

theorem canonical_parentSpanID : canonicalKey headerParentSpanID = b!"Parent-Span-Id" := by decide

theorem AMap.get_perm {K V : Type} [DecidableEq K] {m m' : AMap K V} (hn : m.keys.Nodup) (hp : m.Perm m') (k : K) :
    AMap.get m k = AMap.get m' k := by
  have hn' : m'.keys.Nodup := (hp.map Prod.fst).nodup_iff.1 hn
  cases h : AMap.get m k with
  | some v => exact (AMap.get_of_mem hn' (hp.mem_iff.1 (AMap.mem_of_get h))).symm
  | none =>
    cases h' : AMap.get m' k with
    | none => rfl
    | some v =>
      have := AMap.get_of_mem hn (hp.mem_iff.2 (AMap.mem_of_get h'))
      rw [h] at this
      simp at this

/-! ## Getting span IDs -/

theorem find_says {h : Header} {key name v : Bytes} (hk : canonicalKey key = name) (hs : h.Says name v) : h.find key = v := by
  obtain ⟨_, vs, hv⟩ := hs
  simp only [Header.find, hk, hv]

theorem find_lacks {h : Header} {key name : Bytes} (hk : canonicalKey key = name) (hs : h.Lacks name) : h.find key = [] := by
  simp only [Header.find, hk]
  cases hg : AMap.get h name with
  | none => rfl
  | some vs =>
    cases vs with
    | nil => rfl
    | cons v vs =>
      by_cases hv : v = []
      · exact hv
      · exact absurd ⟨hv, vs, hg⟩ (hs v)

theorem says_or_lacks (h : Header) (name : Bytes) : (∃ v, h.Says name v) ∨ h.Lacks name := by
  by_cases hx : ∃ v, h.Says name v
  · exact .inl hx
  · exact .inr fun v hv => hx ⟨v, hv⟩

/-! ## Letter case -/

set_option maxRecDepth 10000

theorem byte_cases (P : UInt8 → Prop) [DecidablePred P] (h : ∀ n : Fin 256, P (UInt8.ofNat n.val)) (c : UInt8) : P c := by
  have := h ⟨c.toNat, c.toNat_lt⟩
  simpa using this

theorem lower_upper (c : UInt8) : lowerByte (upperByte c) = lowerByte c :=
  byte_cases (fun c => lowerByte (upperByte c) = lowerByte c) (by decide) c

theorem lower_lower (c : UInt8) : lowerByte (lowerByte c) = lowerByte c :=
  byte_cases (fun c => lowerByte (lowerByte c) = lowerByte c) (by decide) c

theorem token_upper (c : UInt8) : tokenByte (upperByte c) = tokenByte c :=
  byte_cases (fun c => tokenByte (upperByte c) = tokenByte c) (by decide) c

theorem token_lower (c : UInt8) : tokenByte (lowerByte c) = tokenByte c :=
  byte_cases (fun c => tokenByte (lowerByte c) = tokenByte c) (by decide) c

theorem token_ascii (c : UInt8) (h : tokenByte c = true) : c < 128 :=
  byte_cases (fun c => tokenByte c = true → c < 128) (by decide) c h

theorem lower_ascii (c : UInt8) : (decide (lowerByte c < 128)) = decide (c < 128) :=
  byte_cases (fun c => (decide (lowerByte c < 128)) = decide (c < 128)) (by decide) c

theorem sameLetter_iff (a b : UInt8) : SameLetter a b ↔ lowerByte a = lowerByte b := by
  unfold SameLetter lowerByte
  simp only [Bool.and_eq_true, decide_eq_true_eq, UInt8.le_iff_toNat_le, ← UInt8.toNat_inj]
  have ha := a.toNat_lt
  have hb := b.toNat_lt
  have h65 : (65 : UInt8).toNat = 65 := rfl
  have h90 : (90 : UInt8).toNat = 90 := rfl
  rw [h65, h90]
  have h32 : (32 : UInt8).toNat = 32 := rfl
  split <;> split <;> (try simp only [UInt8.toNat_add, h32]) <;> omega

theorem sameText_iff (a b : Bytes) : SameText a b ↔ a.map lowerByte = b.map lowerByte := by
  unfold SameText
  induction a generalizing b with
  | nil => cases b <;> simp
  | cons x a ih =>
    cases b with
    | nil => simp
    | cons y b => simp [ih, sameLetter_iff]

theorem ascii_of_sameText {a b : Bytes} (h : SameText a b) : ascii a = ascii b := by
  rw [sameText_iff] at h
  have key : ∀ s : Bytes, ascii s = (s.map lowerByte).all (· < 128) := by
    intro s
    unfold ascii
    rw [List.all_map]
    congr 1
    funext c
    exact (lower_ascii c).symm
  rw [key a, key b, h]

theorem canonLoop_lower (u : Bool) (s : Bytes) : (canonLoop u s).map lowerByte = s.map lowerByte := by
  induction s generalizing u with
  | nil => rfl
  | cons c s ih =>
    simp only [canonLoop, List.map_cons, ih]
    cases u
    · simp only [Bool.false_eq_true, if_false, lower_lower]
    · simp only [if_true, lower_upper]

theorem canonLoop_token (u : Bool) (s : Bytes) : (canonLoop u s).all tokenByte = s.all tokenByte := by
  induction s generalizing u with
  | nil => rfl
  | cons c s ih =>
    simp only [canonLoop, List.all_cons, ih]
    cases u
    · simp only [Bool.false_eq_true, if_false, token_lower]
    · simp only [if_true, token_upper]

theorem canonical_sameText (k : Bytes) : SameText (canonicalKey k) k := by
  rw [sameText_iff]
  unfold canonicalKey
  split
  · exact canonLoop_lower _ _
  · rfl

theorem SameText.symm {a b : Bytes} (h : SameText a b) : SameText b a := by
  rw [sameText_iff] at h ⊢; exact h.symm

theorem SameText.trans {a b c : Bytes} (h : SameText a b) (h' : SameText b c) : SameText a c := by
  rw [sameText_iff] at h h' ⊢; exact h.trans h'

theorem canonical_eq_sameText {a b : Bytes} (h : canonicalKey a = canonicalKey b) : SameText a b :=
  (canonical_sameText a).symm.trans (h ▸ canonical_sameText b)

theorem canonical_token (k : Bytes) : (canonicalKey k).all tokenByte = k.all tokenByte := by
  unfold canonicalKey
  split
  · exact canonLoop_token _ _
  · rfl

/-- The case of each letter is determined by the letters before it alone, so texts that differ in case have one canonical form. -/
theorem canonLoop_congr (u : Bool) {a b : Bytes} (h : a.map lowerByte = b.map lowerByte) : canonLoop u a = canonLoop u b := by
  induction a generalizing b u with
  | nil => cases b with
    | nil => rfl
    | cons y b => simp at h
  | cons x a ih =>
    cases b with
    | nil => simp at h
    | cons y b =>
      simp only [List.map_cons, List.cons.injEq] at h
      have hu : upperByte x = upperByte y := by
        have e : ∀ c, upperByte c = upperByte (lowerByte c) :=
          fun c => byte_cases (fun c => upperByte c = upperByte (lowerByte c)) (by decide) c
        rw [e x, e y, h.1]
      have hd : (x == 45) = (y == 45) := by
        have e : ∀ c : UInt8, (c == 45) = (lowerByte c == 45) :=
          fun c => byte_cases (fun c => (c == 45) = (lowerByte c == 45)) (by decide) c
        rw [e x, e y, h.1]
      simp only [canonLoop, hu, h.1, hd, ih _ h.2]

theorem canonical_congr {a b : Bytes} (h : SameText a b) (ht : a.all tokenByte = true) : canonicalKey a = canonicalKey b := by
  rw [sameText_iff] at h
  have hb : b.all tokenByte = true := by
    have key : ∀ s : Bytes, s.all tokenByte = (s.map lowerByte).all tokenByte := by
      intro s
      rw [List.all_map]
      congr 1
      funext c
      exact (token_lower c).symm
    rw [key b, ← h, ← key a, ht]
  simp only [canonicalKey, ht, hb, if_true]
  exact canonLoop_congr _ h

theorem canonical_nonascii {k k' : Bytes} (hk : ascii k = false) (h : canonicalKey k' = canonicalKey k) : k' = k := by
  have hnt : k.all tokenByte = false := by
    cases ht : k.all tokenByte with
    | false => rfl
    | true =>
      exfalso
      have : ascii k = true := by
        simp only [ascii, List.all_eq_true] at ht ⊢
        intro c hc
        exact decide_eq_true (token_ascii c (ht c hc))
      rw [hk] at this
      simp at this
  have hnt' : k'.all tokenByte = false := by
    have := canonical_token k'
    rw [h, canonical_token, hnt] at this
    exact this.symm
  simpa [canonicalKey, hnt, hnt'] using h

/-! ## Redaction -/

theorem isRedacted_of_lists {red : Redaction} {k : Bytes} (h : red.Lists k) : isRedacted red k = true := by
  obtain ⟨v, hv, hc⟩ := h
  simp only [isRedacted, List.any_eq_true]
  refine ⟨v, hv, ?_⟩
  rcases hc with ⟨h1, h2, h3⟩ | ⟨h1, h2⟩
  · rw [sameText_iff] at h3
    simp [equalFold, h1, h2, h3]
  · simp [equalFold, h1, h2]

theorem isRedacted_iff {red : Redaction} {k : Bytes} : isRedacted red k = true ↔ red.Matches k := by
  simp only [isRedacted, List.any_eq_true, Redaction.Matches]
  refine exists_congr fun v => and_congr_right fun _ => ?_
  unfold equalFold
  by_cases h : ascii k = true ∧ ascii v = true
  · rw [if_pos h, if_pos (by simp [h]), sameText_iff]
    simp
  · rw [if_neg h, if_neg (by simpa using h)]

theorem tokenByte_iff (c : UInt8) : tokenByte c = true ↔ IsTokenByte c := by
  unfold IsTokenByte
  exact byte_cases (fun c => tokenByte c = true ↔ (48 ≤ c.toNat ∧ c.toNat ≤ 57) ∨ (65 ≤ c.toNat ∧ c.toNat ≤ 90) ∨
    (97 ≤ c.toNat ∧ c.toNat ≤ 122) ∨ c ∈ b!"!#$%&'*+-.^_`|~") (by decide +kernel) c

/-- Names with the same canonical form are listed together. -/
theorem lists_congr {red : Redaction} {k k' : Bytes} (h : red.Lists k) (hc : canonicalKey k' = canonicalKey k) : red.Lists k' := by
  obtain ⟨v, hv, hx⟩ := h
  rcases hx with ⟨h1, h2, h3⟩ | ⟨h1, h2⟩
  · have hs := canonical_eq_sameText hc
    exact ⟨v, hv, .inl ⟨by rw [ascii_of_sameText hs, h1], h2, hs.trans h3⟩⟩
  · have := canonical_nonascii h1 hc
    subst this
    exact ⟨v, hv, .inr ⟨h1, h2⟩⟩

theorem headerLoop_get (red : Redaction) (hs : List (Bytes × List Bytes)) (hn : (AMap.keys hs).Nodup) (h0 : Header) (k : Bytes) :
    AMap.get (redactHeaderLoop red hs h0) k =
      match AMap.get hs k with
      | some v => some (if isRedacted red k then redactedValue else v)
      | none => AMap.get h0 k := by
  induction hs generalizing h0 with
  | nil => rfl
  | cons e es ih =>
    obtain ⟨a, v⟩ := e
    simp only [AMap.keys, List.map_cons, List.nodup_cons] at hn
    simp only [redactHeaderLoop]
    rw [ih hn.2]
    by_cases hak : a = k
    · subst hak
      have : AMap.get es a = none := (AMap.not_mem_keys_iff es a).1 hn.1
      simp [this, AMap.get]
    · rw [AMap.get_set_ne _ _ hak]
      simp only [AMap.get, if_neg hak]

theorem trailerLoop_get (red : Redaction) (ts : List (Bytes × List Bytes)) (hn : (AMap.keys ts).Nodup) (h0 : Header) (k : Bytes) :
    AMap.get (redactTrailerLoop red ts h0) k =
      match AMap.get ts k with
      | some v => some (if isRedacted red k then redactedValue else (AMap.get h0 k).getD [] ++ v)
      | none => AMap.get h0 k := by
  induction ts generalizing h0 with
  | nil => rfl
  | cons e es ih =>
    obtain ⟨a, v⟩ := e
    simp only [AMap.keys, List.map_cons, List.nodup_cons] at hn
    simp only [redactTrailerLoop]
    rw [ih hn.2]
    by_cases hak : a = k
    · subst hak
      have : AMap.get es a = none := (AMap.not_mem_keys_iff es a).1 hn.1
      simp [this, AMap.get]
    · rw [AMap.get_set_ne _ _ hak]
      simp only [AMap.get, if_neg hak]

theorem headerLoop_nodup (red : Redaction) (hs : List (Bytes × List Bytes)) (h0 : Header) (hn : h0.keys.Nodup) :
    (redactHeaderLoop red hs h0).keys.Nodup := by
  induction hs generalizing h0 with
  | nil => exact hn
  | cons e es ih => exact ih _ (AMap.nodup_keys_set _ _ _ hn)

theorem trailerLoop_nodup (red : Redaction) (hs : List (Bytes × List Bytes)) (h0 : Header) (hn : h0.keys.Nodup) :
    (redactTrailerLoop red hs h0).keys.Nodup := by
  induction hs generalizing h0 with
  | nil => exact hn
  | cons e es ih => exact ih _ (AMap.nodup_keys_set _ _ _ hn)

theorem joinLoop_nodup (es : List (Bytes × List Bytes)) (m : AMap Bytes Bytes) (hn : m.keys.Nodup) :
    (joinLoop es m).keys.Nodup := by
  induction es generalizing m with
  | nil => exact hn
  | cons e es ih => exact ih _ (AMap.nodup_keys_set _ _ _ hn)

theorem joinLoop_get (es : List (Bytes × List Bytes)) (m : AMap Bytes Bytes) (K x : Bytes)
    (h : AMap.get (joinLoop es m) K = some x) :
    (∃ e ∈ es, canonicalKey e.1 = K ∧ x = joinComma e.2) ∨ AMap.get m K = some x ∧ ∀ e ∈ es, canonicalKey e.1 ≠ K := by
  induction es generalizing m with
  | nil => exact .inr ⟨h, by simp⟩
  | cons e es ih =>
    rcases ih _ h with ⟨e', he', h1⟩ | ⟨h1, h2⟩
    · exact .inl ⟨e', List.mem_cons_of_mem _ he', h1⟩
    · by_cases hk : canonicalKey e.1 = K
      · rw [hk, AMap.get_set_self] at h1
        exact .inl ⟨e, List.mem_cons_self .., hk, (Option.some.inj h1).symm⟩
      · rw [AMap.get_set_ne _ _ hk] at h1
        refine .inr ⟨h1, ?_⟩
        intro e' he'
        rcases List.mem_cons.1 he' with rfl | he'
        · exact hk
        · exact h2 e' he'

theorem joinLoop_some (es : List (Bytes × List Bytes)) (m : AMap Bytes Bytes) (K : Bytes)
    (h : (∃ e ∈ es, canonicalKey e.1 = K) ∨ (AMap.get m K).isSome) : ∃ x, AMap.get (joinLoop es m) K = some x := by
  induction es generalizing m with
  | nil =>
    rcases h with ⟨e, he, _⟩ | h
    · simp at he
    · exact Option.isSome_iff_exists.1 h
  | cons e es ih =>
    apply ih
    rcases h with ⟨e', he', hk⟩ | h
    · rcases List.mem_cons.1 he' with rfl | he'
      · right; rw [hk, AMap.get_set_self]; rfl
      · exact .inl ⟨e', he', hk⟩
    · right
      rw [AMap.get_set]
      split
      · rfl
      · exact h

theorem joinComma_eq (vs : List Bytes) : joinComma vs = List.intercalate [44] vs := by
  induction vs with
  | nil => rfl
  | cons v vs ih =>
    cases vs with
    | nil => simp [joinComma, List.intercalate]
    | cons w ws =>
      rw [joinComma, ih]
      · simp [List.intercalate, List.intersperse]
      · simp

/-- The entries that are joined. -/
structure Entries (red : Redaction) (header trailer : Header) (es : List (Bytes × List Bytes)) : Prop where
  nodup : (AMap.keys es).Nodup
  get : ∀ k, AMap.get es k =
    match AMap.get header k, AMap.get trailer k with
    | none, none => none
    | v, w => some (if isRedacted red k then redactedValue else v.getD [] ++ w.getD [])

theorem entries_of {red : Redaction} {header trailer : Header} (hh : header.keys.Nodup) (ht : trailer.keys.Nodup)
    {m : AMap Bytes Bytes} (h : RedactsTo red header trailer m) : ∃ es, Entries red header trailer es ∧ m = joinLoop es [] := by
  obtain ⟨hs, ts, es, h1, h2, h3, rfl⟩ := h
  have hhs : (AMap.keys hs).Nodup := (h1.map Prod.fst).nodup_iff.2 hh
  have hts : (AMap.keys ts).Nodup := (h2.map Prod.fst).nodup_iff.2 ht
  have hn := trailerLoop_nodup red ts _ (headerLoop_nodup red hs [] List.nodup_nil)
  have hes : (AMap.keys es).Nodup := (h3.map Prod.fst).nodup_iff.2 hn
  refine ⟨es, ⟨hes, ?_⟩, rfl⟩
  intro k
  rw [AMap.get_perm hes h3, trailerLoop_get red ts hts, headerLoop_get red hs hhs, AMap.get_perm hhs h1, AMap.get_perm hts h2]
  cases AMap.get header k <;> cases AMap.get trailer k <;> simp [AMap.get] <;> split <;> rfl

theorem forall₂_perm {α : Type} {R : α → α → Prop} {l l' p : List α} (h : List.Forall₂ R l l') (hp : p.Perm l) :
    ∃ p', p'.Perm l' ∧ List.Forall₂ R p p' := by
  have := List.Perm.symm hp
  clear hp
  induction this generalizing l' with
  | nil => cases h; exact ⟨[], .refl _, .nil⟩
  | cons x _ ih =>
    cases h with
    | cons hx hr =>
      obtain ⟨p', h1, h2⟩ := ih hr
      exact ⟨_ :: p', h1.cons _, .cons hx h2⟩
  | swap x y l =>
    cases h with
    | cons hx hr =>
      cases hr with
      | cons hy hr => exact ⟨_, List.Perm.swap .., .cons hy (.cons hx hr)⟩
  | trans _ _ ih1 ih2 =>
    obtain ⟨q, h1, h2⟩ := ih1 h
    obtain ⟨q', h3, h4⟩ := ih2 h2
    exact ⟨q', h3.trans h1, h4⟩

theorem headerLoop_same {red : Redaction} {hs hs' : Header} (h : SameButRedacted red hs hs') (h0 : Header) :
    redactHeaderLoop red hs h0 = redactHeaderLoop red hs' h0 := by
  induction h generalizing h0 with
  | nil => rfl
  | @cons e e' _ _ he _ ih =>
    obtain ⟨a, v⟩ := e
    obtain ⟨a', v'⟩ := e'
    obtain ⟨rfl, he⟩ := he
    simp only [redactHeaderLoop]
    rcases he with he | rfl
    · rw [isRedacted_iff.2 he, ih]; rfl
    · exact ih _

theorem trailerLoop_same {red : Redaction} {hs hs' : Header} (h : SameButRedacted red hs hs') (h0 : Header) :
    redactTrailerLoop red hs h0 = redactTrailerLoop red hs' h0 := by
  induction h generalizing h0 with
  | nil => rfl
  | @cons e e' _ _ he _ ih =>
    obtain ⟨a, v⟩ := e
    obtain ⟨a', v'⟩ := e'
    obtain ⟨rfl, he⟩ := he
    simp only [redactTrailerLoop]
    rcases he with he | rfl
    · rw [isRedacted_iff.2 he, ih]; rfl
    · exact ih _

theorem redactsTo_same {red : Redaction} {h h' t t' : Header} (hh : SameButRedacted red h h') (ht : SameButRedacted red t t')
    {m : AMap Bytes Bytes} (hm : RedactsTo red h t m) : RedactsTo red h' t' m := by
  obtain ⟨hs, ts, es, h1, h2, h3, rfl⟩ := hm
  obtain ⟨hs', p1, q1⟩ := forall₂_perm hh h1
  obtain ⟨ts', p2, q2⟩ := forall₂_perm ht h2
  refine ⟨hs', ts', es, p1, p2, ?_, rfl⟩
  rw [← headerLoop_same q1, ← trailerLoop_same q2]
  exact h3

theorem SameButRedacted.refl (red : Redaction) (h : Header) : SameButRedacted red h h := by
  induction h with
  | nil => exact .nil
  | cons e es ih => exact .cons ⟨rfl, .inr rfl⟩ ih

theorem SameButRedacted.symm {red : Redaction} {h h' : Header} (hs : SameButRedacted red h h') : SameButRedacted red h' h := by
  induction hs with
  | nil => exact .nil
  | cons he _ ih =>
    refine .cons ⟨he.1.symm, ?_⟩ ih
    rcases he.2 with hr | hr
    · exact .inl (he.1 ▸ hr)
    · exact .inr hr.symm

theorem SameButRedacted.set {red : Redaction} {h h' : Header} (hs : SameButRedacted red h h') (k : Bytes) (v : List Bytes) :
    SameButRedacted red (AMap.set h k v) (AMap.set h' k v) := by
  induction hs with
  | nil => exact .cons ⟨rfl, .inr rfl⟩ .nil
  | @cons e e' l l' he hr ih =>
    obtain ⟨a, x⟩ := e
    obtain ⟨a', x'⟩ := e'
    obtain ⟨rfl, hx⟩ := he
    simp only [AMap.set]
    split
    · exact .cons ⟨rfl, .inr rfl⟩ hr
    · exact .cons ⟨rfl, hx⟩ ih

/-! ## Recording -/

theorem recorder_run_span (env : RecEnv) (r : Recorder) (ops : List RecOp) : (r.run env ops).1.span = r.span := by
  induction ops generalizing r with
  | nil => rfl
  | cons op ops ih =>
    simp only [Recorder.run]
    rw [ih]
    have herr : ∀ (r : Recorder) (m : RecMethod) (e : RecErr), (r.error env m e).span = r.span := by
      intro r m e
      obtain ⟨logger, _⟩ := r
      cases logger <;> rfl
    have hann : ∀ (r : Recorder) (as : List Annotation), (r.annotation env as).span = r.span := by
      intro r as
      simp only [Recorder.annotation, Recorder.failsafeAnnotation]
      cases env.answer r.calls (r.span, as) with
      | none => rfl
      | some e => exact herr _ _ _
    cases op with
    | event as => cases as with
      | error e => exact herr _ _ _
      | ok as => rfl
    | annotation as => exact hann _ _
    | finish =>
      simp only [Recorder.step, Recorder.finish]
      split
      · exact herr _ _ _
      · exact hann _ _
    | errors => rfl

theorem recordsEvent_span {env : RecEnv} {span : SpanID} {name : Option Bytes} {E : EventType} {v : GVal} {r : Recorder}
    (h : RecordsEvent env span name E v r) : r.span = span := by
  obtain ⟨_, _, _, _, rfl⟩ := h
  exact recorder_run_span _ _ _

theorem recordsEvent_total (env : RecEnv) (span : SpanID) (name : Option Bytes) (E : EventType) (hE : E.marshaler = none) (v : GVal) :
    ∃ r, RecordsEvent env span name E v r := by
  have hm : ∀ (E : EventType) (v : GVal), E.marshaler = none → ∃ as, Marshals E v (.ok as) := by
    intro E v hE
    refine ⟨(flatten E.type [] v).map annotationOf ++ [schemaMarker E.schema], ?_⟩
    simp only [Marshals, hE]
    exact ⟨_, List.Perm.refl _, rfl⟩
  obtain ⟨as, has⟩ := hm E v hE
  cases name with
  | none => exact ⟨_, [], as, rfl, has, rfl⟩
  | some s =>
    obtain ⟨ns, hns⟩ := hm spanNameEvent (nameValue s) rfl
    exact ⟨_, _, as, ⟨ns, hns, rfl⟩, has, rfl⟩

theorem redactsTo_total (red : Redaction) (h t : Header) : ∃ m, RedactsTo red h t m :=
  ⟨_, _, _, _, List.Perm.refl _, List.Perm.refl _, List.Perm.refl _, rfl⟩

theorem redactsTo_nodup {red : Redaction} {h t : Header} {m : AMap Bytes Bytes} (hm : RedactsTo red h t m) : m.keys.Nodup := by
  obtain ⟨_, _, es, _, _, _, rfl⟩ := hm
  exact joinLoop_nodup es [] List.nodup_nil

theorem getSpanIDFrom_err {src : Nat → ID} {n : Nat} {h : Header} {e : SpanIDError} (he : (getSpanID src n h).2 = some e) :
    (getSpanIDFrom src n h).spanID = none := by
  simp only [getSpanID] at he
  revert he
  unfold getSpanIDFrom
  split
  · simp
  · simp
  · split <;> simp

theorem valuesUnder_of_no_key {h : Header} {name : Bytes} (hk : ∀ k ∈ h.keys, canonicalKey k ≠ name) : h.valuesUnder name = [] := by
  unfold Header.valuesUnder
  rw [List.filter_eq_nil_iff.2]
  · rfl
  · intro e he
    simpa using hk e.1 (List.mem_map.2 ⟨e, he, rfl⟩)

theorem valuesUnder_set (h : Header) (name : Bytes) (v : List Bytes) (hc : canonicalKey name = name) (hn : h.keys.Nodup)
    (hone : ∀ k ∈ h.keys, canonicalKey k = name → k = name) : Header.valuesUnder (AMap.set h name v) name = v := by
  induction h with
  | nil => simp [AMap.set, Header.valuesUnder, hc]
  | cons e es ih =>
    obtain ⟨a, w⟩ := e
    simp only [AMap.keys, List.map_cons, List.nodup_cons] at hn
    simp only [AMap.set]
    split
    · rename_i ha
      subst ha
      have : Header.valuesUnder es a = [] := valuesUnder_of_no_key (by
        intro k hk hka
        have := hone k (List.mem_cons_of_mem _ hk) hka
        subst this
        exact hn.1 hk)
      unfold Header.valuesUnder at this ⊢
      simp [hc, this]
    · rename_i ha
      have hca : canonicalKey a ≠ name := fun h => ha (hone a (List.mem_cons_self ..) h)
      have := ih hn.2 fun k hk => hone k (List.mem_cons_of_mem _ hk)
      unfold Header.valuesUnder at this ⊢
      simp [hca, this]

theorem holds_gStrings (m : AMap Bytes Bytes) (hn : m.keys.Nodup) : (GType.map .string).holds (gStrings m) = true := by
  simp only [gStrings, GType.holds, Bool.and_eq_true, decide_eq_true_eq, List.all_map]
  constructor
  · simpa [AMap.keys, List.map_map, Function.comp_def] using hn
  · simp [ScalarTy.holds]

theorem holds_tInt (i : Int) (h : -2 ^ 63 ≤ i ∧ i < 2 ^ 63) : tInt.holds (.scalar (.int i)) = true := by
  simp only [tInt, GType.holds, ScalarTy.holds, Bool.and_eq_true, decide_eq_true_eq]
  exact ⟨⟨by decide, h.1⟩, h.2⟩

theorem holds_struct (ns : List Bytes) (ts : List GType) (vs : List GVal) : (GType.struct ns ts).holds (.struct vs) = holdsAll ts vs := by
  simp only [GType.holds]

theorem holds_gString (s : Bytes) : tString.holds (gString s) = true := by
  simp only [tString, gString, GType.holds, ScalarTy.holds]

theorem holds_requestInfo (r : Request) (m : AMap Bytes Bytes) (hn : m.keys.Nodup)
    (hl : -2 ^ 63 ≤ r.contentLength ∧ r.contentLength < 2 ^ 63) : requestInfoType.holds (requestInfo r m) = true := by
  have h1 := holds_gStrings m hn
  have h2 := holds_tInt _ hl
  simp only [requestInfoType, requestInfo, holds_struct, holdsAll, h1, h2, holds_gString, Bool.and_true]

theorem holds_responseInfo (r : Response) (m : AMap Bytes Bytes) (hn : m.keys.Nodup)
    (hl : -2 ^ 63 ≤ r.contentLength ∧ r.contentLength < 2 ^ 63) (hs : -2 ^ 63 ≤ r.statusCode ∧ r.statusCode < 2 ^ 63) :
    responseInfoType.holds (responseInfo r m) = true := by
  have h1 := holds_gStrings m hn
  have h2 := holds_tInt _ hl
  have h3 := holds_tInt _ hs
  simp only [responseInfoType, responseInfo, holds_struct, holdsAll, h1, h2, h3, Bool.and_true]

end Appdash
