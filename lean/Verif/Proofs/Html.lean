import Verif.Model.Html
import Verif.Spec.Html
import Verif.Spec.JsonText
import Verif.Proofs.JsonText
import Verif.Proofs.Http
import Verif.Proofs.Dashboard
import Verif.Spec.TimelineData

/-!
# Helper lemmas about HTML
-/

namespace Appdash

/-! ## Escaping -/

/-- A byte that means nothing special in HTML. -/
def SafeByte (c : UInt8) : Prop := c ≠ 60 ∧ c ≠ 62 ∧ c ≠ 34 ∧ c ≠ 39

instance (c : UInt8) : Decidable (SafeByte c) := by unfold SafeByte; infer_instance

set_option maxRecDepth 10000 in
theorem htmlEscapeByte_safe (c : UInt8) : ∀ x ∈ htmlEscapeByte c, SafeByte x :=
  byte_cases (fun c => ∀ x ∈ htmlEscapeByte c, SafeByte x) (by decide) c

theorem htmlEscape_safe (s : Bytes) : ∀ x ∈ htmlEscape s, SafeByte x := by
  intro x hx
  obtain ⟨c, -, hc⟩ := List.mem_flatMap.1 hx
  exact htmlEscapeByte_safe c x hc

theorem decodeRefsAux_escape (s : Bytes) : ∀ n, (htmlEscape s).length ≤ n → decodeRefsAux n (htmlEscape s) = shownBytes s := by
  induction s with
  | nil => intro n _; cases n <;> rfl
  | cons c s ih =>
    intro n hn
    have e : htmlEscape (c :: s) = htmlEscapeByte c ++ htmlEscape s := rfl
    rw [e] at hn ⊢
    have e2 : shownBytes (c :: s) = (if c = 0 then [239, 191, 189] else [c]) ++ shownBytes s := rfl
    rw [e2]
    unfold htmlEscapeByte at hn ⊢
    by_cases h0 : c = 0
    · subst h0
      simp only [if_true, List.length_append, List.length_cons, List.length_nil] at hn
      obtain ⟨m, rfl⟩ : ∃ m, n = m + 3 := ⟨n - 3, by omega⟩
      have := ih m (by omega)
      simp [decodeRefsAux, this]
    · rw [if_neg h0] at hn ⊢
      rw [if_neg h0]
      by_cases h1 : c = 34
      · subst h1
        simp only [if_true, List.length_append, List.length_cons, List.length_nil] at hn
        obtain ⟨m, rfl⟩ : ∃ m, n = m + 1 := ⟨n - 1, by omega⟩
        have := ih m (by omega)
        simpa [decodeRefsAux, charRefs] using this
      rw [if_neg h1] at hn ⊢
      by_cases h1 : c = 38
      · subst h1
        simp only [if_true, List.length_append, List.length_cons, List.length_nil] at hn
        obtain ⟨m, rfl⟩ : ∃ m, n = m + 1 := ⟨n - 1, by omega⟩
        have := ih m (by omega)
        simpa [decodeRefsAux, charRefs] using this
      have h38 := h1
      rw [if_neg h1] at hn ⊢
      by_cases h1 : c = 39
      · subst h1
        simp only [if_true, List.length_append, List.length_cons, List.length_nil] at hn
        obtain ⟨m, rfl⟩ : ∃ m, n = m + 1 := ⟨n - 1, by omega⟩
        have := ih m (by omega)
        simpa [decodeRefsAux, charRefs] using this
      rw [if_neg h1] at hn ⊢
      by_cases h1 : c = 43
      · subst h1
        simp only [if_true, List.length_append, List.length_cons, List.length_nil] at hn
        obtain ⟨m, rfl⟩ : ∃ m, n = m + 1 := ⟨n - 1, by omega⟩
        have := ih m (by omega)
        simpa [decodeRefsAux, charRefs] using this
      rw [if_neg h1] at hn ⊢
      by_cases h1 : c = 60
      · subst h1
        simp only [if_true, List.length_append, List.length_cons, List.length_nil] at hn
        obtain ⟨m, rfl⟩ : ∃ m, n = m + 1 := ⟨n - 1, by omega⟩
        have := ih m (by omega)
        simpa [decodeRefsAux, charRefs] using this
      rw [if_neg h1] at hn ⊢
      by_cases h1 : c = 62
      · subst h1
        simp only [if_true, List.length_append, List.length_cons, List.length_nil] at hn
        obtain ⟨m, rfl⟩ : ∃ m, n = m + 1 := ⟨n - 1, by omega⟩
        have := ih m (by omega)
        simpa [decodeRefsAux, charRefs] using this
      rw [if_neg h1] at hn ⊢
      simp only [List.length_append, List.length_cons, List.length_nil] at hn
      obtain ⟨m, rfl⟩ : ∃ m, n = m + 1 := ⟨n - 1, by omega⟩
      have := ih m (by omega)
      simp [decodeRefsAux, h38, this]

/-- The browser resolves what the template engine escaped. -/
theorem decodeRefs_escape (s : Bytes) : decodeRefs (htmlEscape s) = shownBytes s :=
  decodeRefsAux_escape s _ (Nat.le_refl _)

/-- Bytes that escaping leaves alone. -/
def PlainHTML (c : UInt8) : Prop := c ≠ 0 ∧ c ≠ 34 ∧ c ≠ 38 ∧ c ≠ 39 ∧ c ≠ 43 ∧ c ≠ 60 ∧ c ≠ 62

theorem htmlEscape_plain {s : Bytes} (h : ∀ c ∈ s, PlainHTML c) : htmlEscape s = s := by
  induction s with
  | nil => rfl
  | cons c s ih =>
    have e : htmlEscape (c :: s) = htmlEscapeByte c ++ htmlEscape s := rfl
    rw [e, ih fun x hx => h x (by simp [hx])]
    obtain ⟨h1, h2, h3, h4, h5, h6, h7⟩ := h c (by simp)
    simp [htmlEscapeByte, h1, h2, h3, h4, h5, h6, h7]

theorem shownBytes_of {s : Bytes} (h : 0 ∉ s) : shownBytes s = s := by
  induction s with
  | nil => rfl
  | cons c s ih =>
    simp only [List.mem_cons, not_or] at h
    have e : shownBytes (c :: s) = (if c = 0 then [239, 191, 189] else [c]) ++ shownBytes s := rfl
    rw [e, ih h.2, if_neg (fun e => h.1 e.symm)]
    rfl

/-! ## The tokenizer -/

theorem scan_text (s : Bytes) : ∀ (acc r : Bytes), 60 ∉ s → htmlScan .data acc (s ++ r) = htmlScan .data (acc ++ s) r := by
  induction s with
  | nil => intro acc r _; simp
  | cons c s ih =>
    intro acc r h
    simp only [List.mem_cons, not_or] at h
    have hc : ¬ (c = 60 ∧ opensTag (s ++ r) = true) := fun e => h.1 e.1.symm
    simp only [List.cons_append, htmlScan, hc, if_false]
    rw [ih _ _ h.2]
    simp

theorem scan_quoted (q : UInt8) (s : Bytes) : ∀ (acc r : Bytes), q ∉ s →
    htmlScan (.quoted q) acc (s ++ q :: r) = htmlScan .tag (acc ++ s ++ [q]) r := by
  induction s with
  | nil => intro acc r _; simp [htmlScan]
  | cons c s ih =>
    intro acc r h
    simp only [List.mem_cons, not_or] at h
    have hc : ¬ c = q := fun e => h.1 e.symm
    simp only [List.cons_append, htmlScan, hc, if_false]
    rw [ih _ _ h.2]
    simp

/-- Escaped text up to the next tag. -/
theorem scan_escaped (s r : Bytes) : htmlScan .data [] (htmlEscape s ++ r) = htmlScan .data (htmlEscape s) r := by
  rw [scan_text _ _ _ fun h => (htmlEscape_safe s _ h).1 rfl]; rfl

/-- An escaped attribute value. -/
theorem scan_attr (acc s r : Bytes) :
    htmlScan (.quoted 34) acc (htmlEscape s ++ 34 :: r) = htmlScan .tag (acc ++ htmlEscape s ++ [34]) r :=
  scan_quoted 34 _ _ _ fun h => (htmlEscape_safe s _ h).2.2.1 rfl

theorem textToken_nil : textToken (decodeRefs []) = [] := rfl

theorem scan_row (k v r : Bytes) : htmlScan .data [] (rowHTML (k, v) ++ r) = rowTokens (k, v) ++ htmlScan .data [] r := by
  have e1 : ∀ s, htmlScan .data [] (b!"<tr><th>" ++ s) = [.tag b!"tr", .tag b!"th"] ++ htmlScan .data [] s := fun s => rfl
  have e2 : ∀ acc s, htmlScan .data acc (b!"</th><td>" ++ s) =
      textToken (decodeRefs acc) ++ ([.tag b!"/th", .tag b!"td"] ++ htmlScan .data [] s) := fun acc s => rfl
  have e3 : ∀ acc s, htmlScan .data acc (b!"</td></tr>" ++ s) =
      textToken (decodeRefs acc) ++ ([.tag b!"/td", .tag b!"/tr"] ++ htmlScan .data [] s) := fun acc s => rfl
  unfold rowHTML
  rw [List.append_assoc, e1, List.append_assoc, scan_escaped, List.append_assoc, e2, List.append_assoc, scan_escaped, e3]
  simp only [decodeRefs_escape, rowTokens, List.append_assoc]

theorem scan_rows (rows : List (Bytes × Bytes)) (r : Bytes) :
    htmlScan .data [] (rows.flatMap rowHTML ++ r) = rows.flatMap rowTokens ++ htmlScan .data [] r := by
  induction rows with
  | nil => rfl
  | cons x rows ih =>
    rw [List.flatMap_cons, List.append_assoc, scan_row, ih, List.flatMap_cons, List.append_assoc]

/-- The tokens of a table. -/
def tableTokens (as : List Annotation) (rows : List (Bytes × Bytes)) : List HtmlToken :=
  if as = [] then []
  else .tag b!"table class=\"table table-condensed table-striped\"" :: (rows.flatMap rowTokens ++ [.tag b!"/table"])

theorem scan_table (as : List Annotation) (rows : List (Bytes × Bytes)) (r : Bytes) :
    htmlScan .data [] (tableHTML as rows ++ r) = tableTokens as rows ++ htmlScan .data [] r := by
  unfold tableHTML tableTokens
  split
  · rfl
  · have e1 : ∀ s, htmlScan .data [] (b!"<table class=\"table table-condensed table-striped\">" ++ s) =
        .tag b!"table class=\"table table-condensed table-striped\"" :: htmlScan .data [] s := fun s => rfl
    have e2 : ∀ s, htmlScan .data [] (b!"</table>" ++ s) = .tag b!"/table" :: htmlScan .data [] s := fun s => rfl
    rw [List.append_assoc, e1, List.append_assoc, scan_rows, e2]
    simp

set_option maxRecDepth 10000 in
theorem toText_html (i : ID) : ∀ c ∈ i.toText, PlainHTML c := by
  intro c h
  have := toText_lower _ _ h
  unfold Spec.IsLowerHex at this
  clear h
  revert this
  exact byte_cases (fun c => (48 ≤ c.toNat ∧ c.toNat ≤ 57 ∨ 97 ≤ c.toNat ∧ c.toNat ≤ 102) →
    c ≠ 0 ∧ c ≠ 34 ∧ c ≠ 38 ∧ c ≠ 39 ∧ c ≠ 43 ∧ c ≠ 60 ∧ c ≠ 62) (by decide) c

theorem spanText_html (i : SpanID) : ∀ c ∈ i.toText, PlainHTML c := by
  intro c h
  have h47 : PlainHTML spanIDDelimiter := by unfold PlainHTML; decide
  unfold SpanID.toText at h
  split at h <;> simp only [List.mem_append, List.mem_singleton] at h
  · rcases h with (h | rfl) | h
    · exact toText_html _ c h
    · exact h47
    · exact toText_html _ c h
  · rcases h with (((h | rfl) | h) | rfl) | h
    · exact toText_html _ c h
    · exact h47
    · exact toText_html _ c h
    · exact h47
    · exact toText_html _ c h

theorem scan_span (s : Span) (rows : List (Bytes × Bytes)) (r : Bytes) :
    htmlScan .data [] (spanHTML s rows ++ r) =
      spanTokens s.id.span.toText s.id.toText (spanTitle s) (s.annotations ≠ []) rows ++ htmlScan .data [] r := by
  have e1 : ∀ s, htmlScan .data [] (b!"<li class=\"trace\" id=\"span-" ++ s) =
      htmlScan (.quoted 34) b!"li class=\"trace\" id=\"span-" s := fun s => rfl
  have e2 : ∀ acc s, htmlScan .tag acc (b!"><strong title=\"" ++ s) =
      .tag acc :: htmlScan (.quoted 34) b!"strong title=\"" s := fun acc s => rfl
  have e3 : ∀ acc s, htmlScan .tag acc (b!">" ++ s) = .tag acc :: htmlScan .data [] s := fun acc s => rfl
  have e4 : ∀ acc s, htmlScan .data acc (b!"</strong>" ++ s) =
      textToken (decodeRefs acc) ++ .tag b!"/strong" :: htmlScan .data [] s := fun acc s => rfl
  have e5 : ∀ s, htmlScan .data [] (b!"</li>" ++ s) = .tag b!"/li" :: htmlScan .data [] s := fun s => rfl
  have f1 : ∀ s : Bytes, b!"\"><strong title=\"" ++ s = 34 :: (b!"><strong title=\"" ++ s) := fun s => rfl
  have f2 : ∀ s : Bytes, b!"\">" ++ s = 34 :: (b!">" ++ s) := fun s => rfl
  unfold spanHTML
  simp only [List.append_assoc]
  rw [e1, f1, scan_attr, e2, f2, scan_attr, e3, scan_escaped, e4, scan_table, e5, decodeRefs_escape,
    htmlEscape_plain (toText_html _), htmlEscape_plain (spanText_html _)]
  have et : tableTokens s.annotations rows = if s.annotations ≠ [] then
      [.tag b!"table class=\"table table-condensed table-striped\""] ++ rows.flatMap rowTokens ++ [.tag b!"/table"] else [] := by
    unfold tableTokens
    by_cases h : s.annotations = [] <;> simp [h]
  rw [et]
  simp only [spanTokens, List.append_assoc, List.cons_append, List.nil_append]

/-! ## The list -/

/-- The tokens of a trace in the list. -/
def itemTokens (reg : Registry) (nils : SpanID → Bool × Bool) (tr : Tree) : List HtmlToken :=
  [.tag b!"li", .tag (b!"input type=\"checkbox\" class=\"trace-checkbox\" checked=\"yes\" data-json-trace=\"" ++
      (htmlEscape (traceText nils tr) ++ [34])), .tag (b!"a href=\"" ++ htmlEscape (urlToTrace tr.span.id.trace) ++ [34]),
    .text tr.span.id.trace.toText, .tag b!"/a", .tag b!"ul class=\"traces\""] ++
    (spanTokens tr.span.id.span.toText tr.span.id.toText (spanTitle tr.span) (tr.span.annotations ≠ [])
      (shortRows reg tr.span.annotations) ++ [.tag b!"/ul", .tag b!"/li"])

set_option maxRecDepth 4000 in
theorem scan_item (reg : Registry) (nils : SpanID → Bool × Bool) (tr : Tree) (r : Bytes) :
    htmlScan .data [] (traceItemHTML reg nils tr ++ r) = itemTokens reg nils tr ++ htmlScan .data [] r := by
  have e1 : ∀ s, htmlScan .data [] (b!"<li><input type=\"checkbox\" class=\"trace-checkbox\" checked=\"yes\" data-json-trace=\"" ++ s) =
      .tag b!"li" :: htmlScan (.quoted 34)
        b!"input type=\"checkbox\" class=\"trace-checkbox\" checked=\"yes\" data-json-trace=\"" s := fun s => rfl
  have e2 : ∀ acc s, htmlScan .tag acc (b!"><a href=\"" ++ s) =
      .tag acc :: htmlScan (.quoted 34) b!"a href=\"" s := fun acc s => rfl
  have e3 : ∀ acc s, htmlScan .tag acc (b!">" ++ s) = .tag acc :: htmlScan .data [] s := fun acc s => rfl
  have e4 : ∀ acc s, htmlScan .data acc (b!"</a><ul class=\"traces\">" ++ s) =
      textToken (decodeRefs acc) ++ .tag b!"/a" :: .tag b!"ul class=\"traces\"" :: htmlScan .data [] s := fun acc s => rfl
  have e5 : ∀ s, htmlScan .data [] (b!"</ul></li>" ++ s) = .tag b!"/ul" :: .tag b!"/li" :: htmlScan .data [] s := fun s => rfl
  have f1 : ∀ s : Bytes, b!"\"><a href=\"" ++ s = 34 :: (b!"><a href=\"" ++ s) := fun s => rfl
  have f2 : ∀ s : Bytes, b!"\">" ++ s = 34 :: (b!">" ++ s) := fun s => rfl
  have ht : textToken (shownBytes tr.span.id.trace.toText) = [.text tr.span.id.trace.toText] := by
    rw [shownBytes_of fun h => (toText_html _ _ h).1 rfl, textToken, if_neg (toText_ne_nil _)]
  unfold traceItemHTML
  simp only [List.append_assoc]
  rw [e1, f1, scan_attr, e2, f2, scan_attr, e3, scan_escaped, e4, scan_span, e5, decodeRefs_escape, ht]
  simp only [itemTokens, List.append_assoc, List.cons_append, List.nil_append]

theorem scan_items (reg : Registry) (nils : SpanID → Bool × Bool) (trs : List Tree) (r : Bytes) :
    htmlScan .data [] (trs.flatMap (traceItemHTML reg nils) ++ r) = trs.flatMap (itemTokens reg nils) ++ htmlScan .data [] r := by
  induction trs with
  | nil => rfl
  | cons x trs ih =>
    rw [List.flatMap_cons, List.append_assoc, scan_item, ih, List.flatMap_cons, List.append_assoc]

theorem attrsOf_append (k n : Bytes) (a b : List HtmlToken) : attrsOf k n (a ++ b) = attrsOf k n a ++ attrsOf k n b :=
  List.filterMap_append ..

theorem attrsOf_text (k n : Bytes) (s : Bytes) : attrsOf k n (textToken s) = [] := by
  unfold textToken
  split <;> rfl

theorem attrsOf_flatMap {α : Type} (k n : Bytes) (l : List α) (f : α → List HtmlToken) :
    attrsOf k n (l.flatMap f) = l.flatMap fun x => attrsOf k n (f x) := by
  induction l with
  | nil => rfl
  | cons x l ih => rw [List.flatMap_cons, attrsOf_append, ih, List.flatMap_cons]

theorem attrsOf_rows (rows : List (Bytes × Bytes)) (n : Bytes) : attrsOf b!"input" n (rows.flatMap rowTokens) = [] := by
  rw [attrsOf_flatMap, List.flatMap_eq_nil_iff]
  intro r _
  simp only [rowTokens, attrsOf_append, attrsOf_text]
  rfl

theorem attrsOf_span (i f t : Bytes) (a : Prop) [Decidable a] (rows : List (Bytes × Bytes)) (n : Bytes) :
    attrsOf b!"input" n (spanTokens i f t a rows) = [] := by
  unfold spanTokens
  simp only [attrsOf_append, attrsOf_text]
  split
  · simp only [attrsOf_append, attrsOf_rows]; rfl
  · rfl

theorem takeWhile_escape (s : Bytes) : (htmlEscape s ++ [34]).takeWhile (fun c => decide (c ≠ 34)) = htmlEscape s := by
  rw [List.takeWhile_append_of_pos]
  · simp
  · intro c h
    simpa using (htmlEscape_safe s c h).2.2.1

theorem tagAttr_json (X : Bytes) : tagAttr b!"data-json-trace"
      (b!"input type=\"checkbox\" class=\"trace-checkbox\" checked=\"yes\" data-json-trace=\"" ++ X) =
    some (decodeRefs (X.takeWhile fun c => decide (c ≠ 34))) := rfl

theorem attrsOf_item (reg : Registry) (nils : SpanID → Bool × Bool) (tr : Tree) :
    attrsOf b!"input" b!"data-json-trace" (itemTokens reg nils tr) = [shownBytes (traceText nils tr)] := by
  have h := tagAttr_json (htmlEscape (traceText nils tr) ++ [34])
  rw [takeWhile_escape, decodeRefs_escape] at h
  unfold itemTokens
  rw [attrsOf_append, attrsOf_append, attrsOf_span]
  have : ∀ raw, (b!"input" ++ b!" ").isPrefixOf raw = true → ∀ r, attrsOf b!"input" b!"data-json-trace" (.tag b!"li" :: .tag raw :: r) =
      (tagAttr b!"data-json-trace" raw).toList ++ attrsOf b!"input" b!"data-json-trace" r := by
    intro raw hr r
    have e : attrsOf b!"input" b!"data-json-trace" (.tag b!"li" :: .tag raw :: r) =
      attrsOf b!"input" b!"data-json-trace" [.tag raw] ++ attrsOf b!"input" b!"data-json-trace" r := by
      rw [← attrsOf_append]; rfl
    rw [e]
    congr 1
    show List.filterMap _ [HtmlToken.tag raw] = _
    simp only [List.filterMap_cons, hr, if_true, List.filterMap_nil]
    cases tagAttr b!"data-json-trace" raw <;> rfl
  rw [this _ rfl, h]
  rfl

/-! ## JSON -/

/-- A byte that cannot begin or end anything in HTML. -/
def ScriptByte (c : UInt8) : Prop := c ≠ 0 ∧ c ≠ 38 ∧ c ≠ 60 ∧ c ≠ 62

instance (c : UInt8) : Decidable (ScriptByte c) := by unfold ScriptByte; infer_instance

set_option maxRecDepth 10000 in
theorem quoteByte_script (c : UInt8) : ∀ x ∈ quoteByte c, ScriptByte x :=
  byte_cases (fun c => ∀ x ∈ quoteByte c, ScriptByte x) (by decide) c

theorem high_script {c : UInt8} (h : 128 ≤ c.toNat) : ScriptByte c := by
  refine ⟨?_, ?_, ?_, ?_⟩ <;> (rintro rfl; revert h; decide)

/-- The bytes of a UTF-8 sequence after the first. -/
theorem utf8_rest {a : UInt8} {r : Bytes} {k : Nat} (h : utf8Len (a :: r) = k + 1) (ha : ¬ a.toNat < 128) :
    ∀ c ∈ r.take k, 128 ≤ c.toNat := by
  unfold utf8Len at h
  simp only [ha, if_false] at h
  intro c hc
  split at h
  · split at h
    · rename_i b r'
      split at h
      · rename_i hb
        obtain rfl : k = 1 := by omega
        simp only [List.take_succ_cons, List.take_zero, List.mem_singleton] at hc
        subst hc
        simpa using (decide_eq_true_iff.1 hb).1
      · cases h
    · cases h
  · split at h
    · split at h
      · rename_i b c' r'
        split at h
        · rename_i hb
          obtain rfl : k = 2 := by omega
          simp only [Bool.and_eq_true, decide_eq_true_eq] at hb
          simp only [List.take_succ_cons, List.take_zero, List.mem_cons, List.not_mem_nil, or_false] at hc
          rcases hc with rfl | rfl
          · exact hb.1.1.1.1
          · exact hb.1.1.2.1
        · cases h
      · cases h
    · split at h
      · split at h
        · rename_i b c' d r'
          split at h
          · rename_i hb
            obtain rfl : k = 3 := by omega
            simp only [Bool.and_eq_true, decide_eq_true_eq] at hb
            simp only [List.take_succ_cons, List.take_zero, List.mem_cons, List.not_mem_nil, or_false] at hc
            rcases hc with rfl | rfl | rfl
            · exact hb.1.1.1.1.1
            · exact hb.1.1.1.2.1
            · exact hb.1.1.2.1
          · cases h
        · cases h
      · cases h

theorem quoteAux_script : ∀ (n : Nat) (s : Bytes), ∀ c ∈ quoteAux n s, ScriptByte c
  | 0, _, c, h => by simp [quoteAux] at h
  | n + 1, [], c, h => by simp [quoteAux] at h
  | n + 1, a :: r, c, h => by
    unfold quoteAux at h
    split at h
    · rcases List.mem_append.1 h with h | h
      · exact quoteByte_script a c h
      · exact quoteAux_script n r c h
    · rename_i ha
      split at h
      · rcases List.mem_append.1 h with h | h
        · exact (show ∀ c ∈ b!"\\ufffd", ScriptByte c by decide) c h
        · exact quoteAux_script n r c h
      · rename_i k hk
        split at h
        · rcases List.mem_append.1 h with h | h
          · exact (show ∀ c ∈ b!"\\u2028", ScriptByte c by decide) c h
          · exact quoteAux_script n _ c h
        · split at h
          · rcases List.mem_append.1 h with h | h
            · exact (show ∀ c ∈ b!"\\u2029", ScriptByte c by decide) c h
            · exact quoteAux_script n _ c h
          · rcases List.mem_cons.1 h with rfl | h
            · exact high_script (by omega)
            · rcases List.mem_append.1 h with h | h
              · exact high_script (utf8_rest hk ha c h)
              · exact quoteAux_script n _ c h

theorem quoteString_script (s : Bytes) : ∀ c ∈ quoteString s, ScriptByte c := by
  intro c h
  simp only [quoteString, List.mem_cons, List.mem_append, List.not_mem_nil, or_false] at h
  rcases h with rfl | h | rfl
  · decide
  · exact quoteAux_script _ _ c h
  · decide

set_option maxRecDepth 10000 in
theorem formatDec_script (n : Nat) : ∀ c ∈ formatDec n, ScriptByte c := by
  intro c h
  have := formatDecAux_digits _ _ c h
  clear h
  revert this
  exact byte_cases (fun c => isDigitByte c = true → ScriptByte c) (by decide) c

theorem formatInt_script (i : Int) : ∀ c ∈ formatInt i, ScriptByte c := by
  cases i with
  | ofNat n => exact formatDec_script n
  | negSucc n =>
    intro c h
    rcases List.mem_cons.1 h with rfl | h
    · decide
    · exact formatDec_script _ c h

theorem blank_script {w : Bytes} (h : Blank w) : ∀ c ∈ w, ScriptByte c := by
  intro c hc
  rcases h c hc with rfl | rfl | rfl | rfl <;> decide

mutual
theorem print_script {L : Layout} (hL : L.Blank) : ∀ (v : JVal) (d : Nat), ∀ c ∈ v.print L d, ScriptByte c
  | .null, d => by simp only [JVal.print]; decide
  | .bool true, d => by simp only [JVal.print]; decide
  | .bool false, d => by simp only [JVal.print]; decide
  | .num (some i), d => by simp only [JVal.print]; exact formatInt_script i
  | .num none, d => by simp only [JVal.print]; decide
  | .str s, d => by simp only [JVal.print]; exact quoteString_script s
  | .arr [], d => by simp only [JVal.print]; decide
  | .arr (v :: vs), d => by
    intro c h
    simp only [JVal.print, List.mem_cons, List.mem_append] at h
    rcases h with rfl | (h | h) | h
    · decide
    · exact blank_script (hL.1 _) c h
    · exact print_script hL v _ c h
    · exact printElems_script hL vs d c h
  | .obj [], d => by simp only [JVal.print]; decide
  | .obj ((k, v) :: ms), d => by
    intro c h
    simp only [JVal.print, List.mem_cons, List.mem_append] at h
    rcases h with rfl | (((h | h) | h) | h) | h
    · decide
    · exact blank_script (hL.1 _) c h
    · exact quoteString_script k c h
    · obtain ⟨w, e, hw⟩ := hL.2
      rw [e] at h
      rcases List.mem_cons.1 h with rfl | h
      · decide
      · exact blank_script hw c h
    · exact print_script hL v _ c h
    · exact printMembers_script hL ms d c h
theorem printElems_script {L : Layout} (hL : L.Blank) : ∀ (vs : List JVal) (d : Nat), ∀ c ∈ printElems L d vs, ScriptByte c
  | [], d => by
    intro c h
    simp only [printElems, List.mem_append, List.mem_singleton] at h
    rcases h with h | rfl
    · exact blank_script (hL.1 _) c h
    · decide
  | v :: vs, d => by
    intro c h
    simp only [printElems, List.mem_cons, List.mem_append] at h
    rcases h with rfl | (h | h) | h
    · decide
    · exact blank_script (hL.1 _) c h
    · exact print_script hL v _ c h
    · exact printElems_script hL vs d c h
theorem printMembers_script {L : Layout} (hL : L.Blank) : ∀ (ms : List (Bytes × JVal)) (d : Nat),
    ∀ c ∈ printMembers L d ms, ScriptByte c
  | [], d => by
    intro c h
    simp only [printMembers, List.mem_append, List.mem_singleton] at h
    rcases h with h | rfl
    · exact blank_script (hL.1 _) c h
    · decide
  | (k, v) :: ms, d => by
    intro c h
    simp only [printMembers, List.mem_cons, List.mem_append] at h
    rcases h with rfl | (((h | h) | h) | h) | h
    · decide
    · exact blank_script (hL.1 _) c h
    · exact quoteString_script k c h
    · obtain ⟨w, e, hw⟩ := hL.2
      rw [e] at h
      rcases List.mem_cons.1 h with rfl | h
      · decide
      · exact blank_script hw c h
    · exact print_script hL v _ c h
    · exact printMembers_script hL ms d c h
end

/-! ## Items -/

theorem cleanList_eq (l : List JVal) : JVal.cleanList l = l.map JVal.clean := by
  induction l with
  | nil => rfl
  | cons v l ih => rw [JVal.cleanList, ih]; rfl

theorem cleanMembers_eq (l : List (Bytes × JVal)) : JVal.cleanMembers l = l.map fun m => (cleanUTF8 m.1, m.2.clean) := by
  induction l with
  | nil => rfl
  | cons v l ih => obtain ⟨k, v⟩ := v; rw [JVal.cleanMembers, ih]; rfl

theorem mapM_map_some {α β γ : Type} (f : α → β) (g : β → Option γ) (k : α → γ) (h : ∀ a, g (f a) = some (k a)) (l : List α) :
    (l.map f).mapM g = some (l.map k) := by
  induction l with
  | nil => rfl
  | cons a l ih => simp only [List.map_cons, List.mapM_cons, h, ih]; rfl

theorem readTimespan_json (t : TimelineSpan) :
    readTimespan (JVal.clean (timespanJSON t)) = some { t with label := cleanUTF8 t.label } := by
  rfl

theorem readItem_json (i : TimelineItem) : readItem (JVal.clean (itemJSON i)) = some i.clean := by
  have h1 : JVal.cleanList (i.times.map timespanJSON) = i.times.map fun t => JVal.clean (timespanJSON t) := by
    rw [cleanList_eq, List.map_map]; rfl
  have h2 : JVal.cleanMembers (i.data.map fun e => (e.1, .str e.2)) = i.data.map fun e => (cleanUTF8 e.1, .str (cleanUTF8 e.2)) := by
    rw [cleanMembers_eq, List.map_map]; rfl
  have h3 := mapM_map_some (fun t => JVal.clean (timespanJSON t)) readTimespan _ readTimespan_json i.times
  have h4 := mapM_map_some (fun e : Bytes × Bytes => (cleanUTF8 e.1, JVal.str (cleanUTF8 e.2))) readEntry
    (fun e => (cleanUTF8 e.1, cleanUTF8 e.2)) (fun _ => rfl) i.data
  rw [← h1] at h3
  rw [← h2] at h4
  have e : ∀ (times : List JVal) (data : List (Bytes × JVal)), readItem (.obj [(cleanUTF8 b!"label", .str (cleanUTF8 i.label)),
      (cleanUTF8 b!"fullLabel", .str (cleanUTF8 i.fullLabel)), (cleanUTF8 b!"times", .arr times), (cleanUTF8 b!"rawData", .obj data),
      (cleanUTF8 b!"spanID", .str (cleanUTF8 i.spanID)), (cleanUTF8 b!"parentSpanID", .str (cleanUTF8 i.parentSpanID)),
      (cleanUTF8 b!"url", .str (cleanUTF8 i.url)), (cleanUTF8 b!"visible", .bool i.visible)]) =
      (times.mapM readTimespan).bind fun ts => (data.mapM readEntry).bind fun d =>
          some { i.clean with times := ts, data := d } := fun times data => rfl
  have := e (JVal.cleanList (i.times.map timespanJSON)) (JVal.cleanMembers (i.data.map fun e => (e.1, .str e.2)))
  rw [h3, h4] at this
  exact this

end Appdash
