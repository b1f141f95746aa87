import Verif.Spec.Pages
import Verif.Proofs.JsonText
import Verif.Proofs.Json
import Verif.Proofs.Base64
import Verif.Proofs.Router
import Verif.Proofs.Upload

/-!
# Lemmas about pages and permalinks
-/

namespace Appdash

open Spec

/-! ## base64url -/

theorem urlVal_char (v : Nat) (h : v < 64) : urlVal (urlChar v) = some v := by
  have : ∀ v : Fin 64, urlVal (urlChar v.val) = some v.val := by decide
  exact this ⟨v, h⟩

/-- Characters that mean nothing in a URL query. -/
def PlainURL (c : UInt8) : Prop :=
  c ≠ 10 ∧ c ≠ 13 ∧ c ≠ 37 ∧ c ≠ 38 ∧ c ≠ 43 ∧ c ≠ 59 ∧ c ≠ 61 ∧ c ≠ 63

instance (c : UInt8) : Decidable (PlainURL c) := by unfold PlainURL; infer_instance

theorem urlChar_plain (v : Nat) (h : v < 64) : PlainURL (urlChar v) := by
  have : ∀ v : Fin 64, PlainURL (urlChar v.val) := by decide
  exact this ⟨v, h⟩

theorem encodeTriples_plain : ∀ s : Bytes, ∀ c ∈ encodeTriples s, PlainURL c
  | [] => by simp [encodeTriples]
  | [_] => by simp [encodeTriples]
  | [_, _] => by simp [encodeTriples]
  | a :: b :: c :: rest => by
    have ha := a.toNat_lt
    have hb := b.toNat_lt
    have hc := c.toNat_lt
    simp only [encodeTriples, List.mem_cons]
    rintro x (rfl | rfl | rfl | rfl | h)
    · exact urlChar_plain _ (by omega)
    · exact urlChar_plain _ (by omega)
    · exact urlChar_plain _ (by omega)
    · exact urlChar_plain _ (by omega)
    · exact encodeTriples_plain rest x h

theorem decodeQuads_encode : ∀ s : Bytes, decodeQuads (encodeTriples s) = s.take (s.length - s.length % 3)
  | [] => rfl
  | [_] => rfl
  | [_, _] => rfl
  | a :: b :: c :: rest => by
    have ha := a.toNat_lt
    have hb := b.toNat_lt
    have hc := c.toNat_lt
    have hl : (a :: b :: c :: rest).length - (a :: b :: c :: rest).length % 3 = rest.length - rest.length % 3 + 1 + 1 + 1 := by
      simp only [List.length_cons]; omega
    rw [hl]
    simp only [encodeTriples, decodeQuads, List.take_succ_cons]
    rw [urlVal_char _ (by omega), urlVal_char _ (by omega), urlVal_char _ (by omega), urlVal_char _ (by omega)]
    simp only [decodeQuads_encode rest]
    rw [b64_byte a _ (by omega), b64_byte b _ (by omega), b64_byte c _ (by omega)]

theorem decodeURL64_encode (s : Bytes) : decodeURL64 (encodeTriples s) = s.take (s.length - s.length % 3) := by
  unfold decodeURL64
  rw [List.filter_eq_self.2, decodeQuads_encode]
  intro c hc
  have := encodeTriples_plain s c hc
  simp [this.1, this.2.1]

theorem decodeQuads_raw : ∀ s : Bytes, decodeQuads (rawURL64 s) = s
  | [] => rfl
  | [a] => by
    have ha := a.toNat_lt
    simp only [rawURL64, decodeQuads]
    rw [urlVal_char _ (by omega), urlVal_char _ (by omega)]
    simp only
    rw [b64_byte a _ (by omega)]
  | [a, b] => by
    have ha := a.toNat_lt
    have hb := b.toNat_lt
    simp only [rawURL64, decodeQuads]
    rw [urlVal_char _ (by omega), urlVal_char _ (by omega), urlVal_char _ (by omega)]
    simp only
    rw [b64_byte a _ (by omega), b64_byte b _ (by omega)]
  | a :: b :: c :: rest => by
    have ha := a.toNat_lt
    have hb := b.toNat_lt
    have hc := c.toNat_lt
    simp only [rawURL64, decodeQuads]
    rw [urlVal_char _ (by omega), urlVal_char _ (by omega), urlVal_char _ (by omega), urlVal_char _ (by omega)]
    simp only [decodeQuads_raw rest]
    rw [b64_byte a _ (by omega), b64_byte b _ (by omega), b64_byte c _ (by omega)]

/-! ## gzip -/

theorem trailer_length {Z : Flate} (hZ : Z.Sound) (d : Bytes) : (Z.trailer d).length = 8 := by
  simp [Flate.trailer, le32, hZ.crc]

/-- Cutting off a few bytes at the end does not hurt the data. -/
theorem gunzip_cut {Z : Flate} (hZ : Z.Sound) (d : Bytes) {k : Nat} (hk : k ≤ 8) :
    ∃ eof, Z.gunzip ((Z.gzip d).take ((Z.gzip d).length - k)) = some (d, eof) := by
  have ht := trailer_length hZ d
  have e : (Z.gzip d).take ((Z.gzip d).length - k) = gzipHeader ++ (Z.deflate d ++ (Z.trailer d).take (8 - k)) := by
    unfold Flate.gzip
    rw [List.take_append, List.take_append, List.take_of_length_le, List.take_of_length_le]
    · congr 3
      simp only [List.length_append]
      omega
    · simp only [List.length_append]; omega
    · simp only [List.length_append]; omega
  rw [e]
  refine ⟨decide (some ((Z.trailer d).take (8 - k)) = some (Z.trailer d)), ?_⟩
  show (let r := Z.inflate (Z.deflate d ++ (Z.trailer d).take (8 - k)); some (r.1, decide (r.2 = some (Z.trailer r.1)))) = _
  simp only [hZ.inverse]

/-! ## The link -/

theorem decodeStream_link (nils : SpanID → Bool × Bool) (tr : Tree) (eof : Bool) :
    decodeStream (linkText nils tr) eof = some (encodeTrace nils tr) := by
  have := parseVal_print Layout.compact_blank (traceJSON nils tr) 0 ((linkText nils tr).length + 1) [] [10] Blank.nil
    (by simp only [linkText, List.length_append]; omega) (ends_of (.inl (by decide)) _)
  rw [List.nil_append] at this
  have e : parseVal ((linkText nils tr).length + 1) (linkText nils tr) = some ((traceJSON nils tr).clean, [10]) := this
  simp [decodeStream, e, clean_trace]

theorem openPermalink_encode {Z : Flate} (hZ : Z.Sound) (ms : MemStore) (nils : SpanID → Bool × Bool) (tr : Tree) :
    openPermalink Z ms (encodeTriples (Z.gzip (linkText nils tr))) = servePermalink ms (encodeTrace nils tr) := by
  obtain ⟨eof, h⟩ := gunzip_cut hZ (linkText nils tr) (k := (Z.gzip (linkText nils tr)).length % 3) (by omega)
  simp only [openPermalink, decodeURL64_encode, h, decodeStream_link]

/-! ## Query strings -/

theorem queryUnescape_plain : ∀ s : Bytes, (∀ c ∈ s, c ≠ 37 ∧ c ≠ 43) → queryUnescape s = some s
  | [], _ => rfl
  | c :: r, h => by
    have hc := h c (by simp)
    have ih := queryUnescape_plain r (fun x hx => h x (by simp [hx]))
    unfold queryUnescape
    split
    · rename_i heq; cases heq
    · rename_i heq
      injection heq with e1 e2
      exact absurd e1 hc.1
    · rename_i heq
      injection heq with e1 e2
      subst e1 e2
      simp [hc, ih]

theorem cutAt_append (sep : UInt8) (a s : Bytes) (h : sep ∉ a) : cutAt sep (a ++ sep :: s) = (a, s) := by
  induction a with
  | nil => simp [cutAt]
  | cons c a ih =>
    simp only [List.mem_cons, not_or] at h
    have : ¬ c = sep := fun e => h.1 e.symm
    simp [cutAt, this, ih h.2]

theorem cutAt_none (sep : UInt8) (a : Bytes) (h : sep ∉ a) : cutAt sep a = (a, []) := by
  induction a with
  | nil => rfl
  | cons c a ih =>
    simp only [List.mem_cons, not_or] at h
    have : ¬ c = sep := fun e => h.1 e.symm
    simp [cutAt, this, ih h.2]

/-- Reading the only setting of a query. -/
theorem queryGet_single (key v : Bytes) (hk : ∀ c ∈ key, PlainURL c) (hv : ∀ c ∈ v, PlainURL c) :
    queryGet (key ++ 61 :: v) key = v := by
  have n38 : (38 : UInt8) ∉ key ++ 61 :: v := by
    simp only [List.mem_append, List.mem_cons, not_or]
    exact ⟨fun h => (hk _ h).2.2.2.1 rfl, by decide, fun h => (hv _ h).2.2.2.1 rfl⟩
  have n59 : (59 : UInt8) ∉ key ++ 61 :: v := by
    simp only [List.mem_append, List.mem_cons, not_or]
    exact ⟨fun h => (hk _ h).2.2.2.2.2.1 rfl, by decide, fun h => (hv _ h).2.2.2.2.2.1 rfl⟩
  have n61 : (61 : UInt8) ∉ key := fun h => (hk _ h).2.2.2.2.2.2.1 rfl
  have hs : querySetting (key ++ 61 :: v) = some (key, v) := by
    unfold querySetting
    rw [if_neg (by simp [n59]), cutAt_append _ _ _ n61]
    simp only [queryUnescape_plain key (fun c hc => ⟨(hk c hc).2.2.1, (hk c hc).2.2.2.2.1⟩),
      queryUnescape_plain v (fun c hc => ⟨(hv c hc).2.2.1, (hv c hc).2.2.2.2.1⟩)]
  simp [queryGet, splitOn_no_sep _ _ n38, hs]

theorem queryGet_permalink (Z : Flate) (nils : SpanID → Bool × Bool) (tr : Tree) :
    queryGet (permalinkQuery Z nils tr) b!"permalink" = encodeTriples (Z.gzip (linkText nils tr)) :=
  queryGet_single b!"permalink" _ (by decide) (encodeTriples_plain _)

theorem gzip_triples_ne {Z : Flate} (d : Bytes) : encodeTriples (Z.gzip d) ≠ [] := by
  simp [Flate.gzip, gzipHeader, encodeTriples]

theorem cutAt_permalink (Z : Flate) (nils : SpanID → Bool × Bool) (tr : Tree) :
    cutAt 63 (permalinkURL Z nils tr) = (urlToTrace tr.span.id.trace, permalinkQuery Z nils tr) := by
  unfold permalinkURL
  apply cutAt_append
  rw [urlToTrace_eq]
  simp only [List.mem_append, List.mem_cons, not_or]
  refine ⟨by decide, by decide, fun h => ?_⟩
  have := toText_lower _ _ h
  unfold Spec.IsLowerHex at this
  revert this
  decide

/-! ## Requests -/

theorem servePermalink_reach {ms : MemStore} (h : Reach ms) (v : JVal) : Reach (servePermalink ms v).1 := by
  unfold servePermalink
  cases decodeTrace v with
  | none => exact h
  | some p =>
    have := upload_reach h [p]
    simp only
    generalize uploadTraces ms [p] = r at this
    obtain ⟨m, b⟩ := r
    cases b <;> exact this

theorem openPermalink_reach {Z : Flate} {ms : MemStore} (h : Reach ms) (link : Bytes) : Reach (openPermalink Z ms link).1 := by
  unfold openPermalink
  split
  · exact h
  · split
    · exact h
    · exact servePermalink_reach h _

theorem lookup_ok {ms : MemStore} {t : ID} {tr : Tree} (h : ms.lookup t = .ok tr) : ms.view t = .found tr := by
  unfold MemStore.lookup at h
  split at h
  · rename_i heq; injection h with h; rw [heq, h]
  · cases h
  · cases h

theorem serveTrace_ok {lookup : ID → Except StoreErr Tree} {path : Bytes} {vars : Vars} {tr : Tree} {b : Bool}
    (h : serveTrace lookup path vars = .ok (tr, b)) : ∃ t tr0, lookup t = .ok tr0 ∧ Subtree tr tr0 := by
  unfold serveTrace at h
  split at h
  · cases h
  · rename_i t _
    split at h
    · cases h
    · rename_i tr0 hl
      refine ⟨t, tr0, hl, ?_⟩
      simp only at h
      split at h
      · split at h
        · cases h
        · split at h
          · cases h
          · rename_i sub hf
            injection h with h
            injection h with h _
            subst h
            exact (findSpan_some _ _ _ hf).2.1
      · injection h with h
        injection h with h _
        subst h
        exact .refl _

theorem tracePage_ok {env : ViewEnv} {Z : Flate} {nils : SpanID → Bool × Bool} {tr : Tree} {pg : TracePage}
    (h : tracePage env Z nils tr = some (.ok (.page pg))) :
    pg.trace = tr ∧ pg.permalink = permalinkURL Z nils tr ∧ pg.json = exportText nils tr ∧
      pg.profileURL = spanProfileURL tr.span.id := by
  unfold tracePage at h
  split at h
  · cases h
  · cases h
  · injection h with h; injection h with h; injection h with h; subst h; exact ⟨rfl, rfl, rfl, rfl⟩
  · injection h with h; injection h with h; injection h with h; subst h; exact ⟨rfl, rfl, rfl, rfl⟩

/-- The page depends on the store only through the tree, and on `nils` only in its two texts. -/
theorem tracePage_nils {env : ViewEnv} {Z : Flate} {nils : SpanID → Bool × Bool} (nils' : SpanID → Bool × Bool) {tr : Tree}
    {pg : TracePage} (h : tracePage env Z nils tr = some (.ok (.page pg))) :
    tracePage env Z nils' tr = some (.ok (.page { pg with permalink := permalinkURL Z nils' tr, json := exportText nils' tr })) := by
  unfold tracePage at h ⊢
  cases hd : d3timeline env tr with
  | none => rw [hd] at h; cases h
  | some r =>
    rw [hd] at h
    cases r with
    | error e =>
      cases e with
      | event e => cases h
      | validation => injection h with h; injection h with h; injection h with h; subst h; rfl
    | ok items => injection h with h; injection h with h; injection h with h; subst h; rfl

theorem showTrace_page {env : ViewEnv} {Z : Flate} {nils : SpanID → Bool × Bool} {ms : MemStore} {path : Bytes} {vars : Vars}
    {pg : TracePage} (h : showTrace env Z nils ms path vars = some (.ok (.page pg))) :
    ∃ t tr0, ms.view t = .found tr0 ∧ Subtree pg.trace tr0 ∧ tracePage env Z nils pg.trace = some (.ok (.page pg)) := by
  unfold showTrace at h
  split at h
  · cases h
  · unfold traceProfile at h
    split at h
    · cases h
    · cases h
    · injection h with h; injection h with h; cases h
  · rename_i tr hs
    obtain ⟨t, tr0, h1, h2⟩ := serveTrace_ok hs
    have := (tracePage_ok h).1
    subst this
    exact ⟨t, tr0, lookup_ok h1, h2, h⟩

theorem serveTraceRequest_page {env : ViewEnv} {Z : Flate} {nils : SpanID → Bool × Bool} {ms ms' : MemStore}
    {path query : Bytes} {vars : Vars} {pg : TracePage} (hr : Reach ms)
    (h : serveTraceRequest env Z nils ms path query vars = (ms', some (.ok (.page pg)))) :
    Reach ms' ∧ ∃ t tr0, ms'.view t = .found tr0 ∧ Subtree pg.trace tr0 ∧
      tracePage env Z nils pg.trace = some (.ok (.page pg)) := by
  unfold serveTraceRequest at h
  split at h
  · have hR := openPermalink_reach (Z := Z) hr (queryGet query b!"permalink")
    generalize openPermalink Z ms (queryGet query b!"permalink") = r at h hR
    obtain ⟨m, u⟩ := r
    cases u with
    | ok =>
      simp only [Prod.mk.injEq] at h
      obtain ⟨rfl, h⟩ := h
      exact ⟨hR, showTrace_page h⟩
    | badJSON => simp only [Prod.mk.injEq] at h; cases h.2
    | panic => simp only [Prod.mk.injEq] at h; cases h.2
  · simp only [Prod.mk.injEq] at h
    obtain ⟨rfl, h⟩ := h
    exact ⟨hr, showTrace_page h⟩

theorem visitURL_page {env : ViewEnv} {Z : Flate} {nils : SpanID → Bool × Bool} {ms ms' : MemStore} {url : Bytes}
    {pg : TracePage} (hr : Reach ms) (h : visitURL env Z nils ms url = some (ms', some (.ok (.page pg)))) :
    Reach ms' ∧ ∃ t tr0, ms'.view t = .found tr0 ∧ Subtree pg.trace tr0 ∧
      tracePage env Z nils pg.trace = some (.ok (.page pg)) := by
  unfold visitURL at h
  split at h
  · split at h
    · injection h with h
      exact serveTraceRequest_page hr h
    · cases h
  · cases h

/-- Visiting a permalink. -/
theorem visitURL_permalink {env : ViewEnv} {Z : Flate} (hZ : Z.Sound) {nils nils' : SpanID → Bool × Bool} (ms : MemStore)
    (tr : Tree) :
    visitURL env Z nils' ms (permalinkURL Z nils tr) =
      some (match servePermalink ms (encodeTrace nils tr) with
        | (ms, .ok) =>
          (ms, match ms.lookup tr.span.id.trace with
            | .error e => some (.error (.serve (.store e)))
            | .ok tr' => tracePage env Z nils' tr')
        | (ms, .badJSON) => (ms, some (.error .link))
        | (ms, .panic) => (ms, none)) := by
  have hs : ∀ ms : MemStore, showTrace env Z nils' ms (urlToTrace tr.span.id.trace) [(b!"Trace", tr.span.id.trace.toText)] =
      match ms.lookup tr.span.id.trace with
      | .error e => some (.error (.serve (.store e)))
      | .ok tr' => tracePage env Z nils' tr' := by
    intro ms
    have hb : pathBase (urlToTrace tr.span.id.trace) = tr.span.id.trace.toText :=
      pathBase_of_parts (ps := [b!"traces"]) (pathParts_trace _) (toText_ne_nil _)
    have hne : (tr.span.id.trace.toText == b!"profile") = false := by simpa using (id_ne tr.span.id.trace).2.2.2
    have hv : AMap.get [(b!"Trace", tr.span.id.trace.toText)] b!"Trace" = some tr.span.id.trace.toText := rfl
    have hw : AMap.get [(b!"Trace", tr.span.id.trace.toText)] b!"Span" = none := rfl
    simp only [showTrace, serveTrace, hv, hw, Option.getD_some, Option.getD_none, parseID_toText, hb, hne]
    cases ms.lookup tr.span.id.trace <;> rfl
  simp only [visitURL, cutAt_permalink, dispatch_trace, servedByTrace, serveTraceRequest, queryGet_permalink, gzip_triples_ne,
    ne_eq, not_false_eq_true, if_true, openPermalink_encode hZ]
  simp only [decide_true, Bool.true_or, if_true]
  generalize servePermalink ms (encodeTrace nils tr) = r
  obtain ⟨m, u⟩ := r
  cases u
  · simp only [hs]
  · rfl
  · rfl

/-! ## Selections -/

theorem selectTraces_ok (traces : List Tree) (ss : List Bytes) (ids : List ID) (h : ss.map parseID = ids.map .ok) :
    selectTraces traces ss = .ok (ids.flatMap fun id => traces.filter fun t => t.span.id.trace = id) := by
  induction ss generalizing ids with
  | nil =>
    cases ids with
    | nil => rfl
    | cons i ids => cases h
  | cons s ss ih =>
    cases ids with
    | nil => cases h
    | cons i ids =>
      simp only [List.map_cons, List.cons.injEq] at h
      simp only [selectTraces, h.1, ih ids h.2, List.flatMap_cons]

theorem selectTraces_error (traces : List Tree) (ss : List Bytes) (h : ∃ s ∈ ss, ∃ e, parseID s = .error e) :
    ∃ e, selectTraces traces ss = .error e := by
  induction ss with
  | nil => simp at h
  | cons s ss ih =>
    unfold selectTraces
    cases hp : parseID s with
    | error e => exact ⟨e, rfl⟩
    | ok i =>
      obtain ⟨x, hx, e, he⟩ := h
      rcases List.mem_cons.1 hx with rfl | hx
      · rw [hp] at he; cases he
      · obtain ⟨e', he'⟩ := ih ⟨x, hx, e, he⟩
        exact ⟨e', by simp only [he']⟩

/-- The traces of distinct IDs, in the order of the IDs, each once. -/
theorem selected_nodup {traces : List Tree} (hd : (traces.map fun t => t.span.id.trace).Nodup) {ids : List ID} (hi : ids.Nodup) :
    ((ids.flatMap fun id => traces.filter fun t => t.span.id.trace = id).map fun t => t.span.id.trace).Nodup := by
  induction ids with
  | nil => simp
  | cons i ids ih =>
    rw [List.nodup_cons] at hi
    rw [List.flatMap_cons, List.map_append, List.nodup_append]
    refine ⟨?_, ih hi.2, ?_⟩
    · exact hd.sublist (List.Sublist.map _ List.filter_sublist)
    · intro a ha b hb e
      subst e
      obtain ⟨t, ht, rfl⟩ := List.mem_map.1 ha
      obtain ⟨u, hu, e⟩ := List.mem_map.1 hb
      obtain ⟨j, hj, hu⟩ := List.mem_flatMap.1 hu
      have h1 := (List.mem_filter.1 ht).2
      have h2 := (List.mem_filter.1 hu).2
      simp only [decide_eq_true_eq] at h1 h2
      rw [h1, h2] at e
      subst e
      exact hi.1 hj

end Appdash
