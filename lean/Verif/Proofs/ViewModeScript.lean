import Verif.Spec.ViewModeScript
import Verif.Proofs.Query

/-! # The menu "View Mode" -/

namespace Appdash
open Spec

theorem replaceSetting_skip (key value : Bytes) : ∀ (a rest : Bytes), 63 ∉ a → 38 ∉ a →
    replaceSetting key value (a ++ rest) = (replaceSetting key value rest).map fun r => a ++ r
  | [], rest, _, _ => by simp
  | c :: a, rest, h1, h2 => by
    simp only [List.mem_cons, not_or] at h1 h2
    rw [List.cons_append, replaceSetting, if_neg (by rintro (e | e) <;> [exact h1.1 e.symm; exact h2.1 e.symm]),
      replaceSetting_skip key value a rest h1.2 h2.2]
    cases replaceSetting key value rest <;> rfl

/-- A string that is empty or starts with `&`. -/
def AtEnd (rest : Bytes) : Prop := rest = [] ∨ ∃ r, rest = 38 :: r

theorem afterFold_append (rest : Bytes) (hr : AtEnd rest) : ∀ pat s : Bytes, (∀ k ∈ pat, foldCase k ≠ 38) →
    afterFold pat (s ++ rest) = (afterFold pat s).map fun r => r ++ rest
  | [], s, _ => by cases s <;> rfl
  | k :: ks, [], h => by
    rcases hr with rfl | ⟨r, rfl⟩
    · rfl
    · show (if foldCase 38 = foldCase k then afterFold ks r else none) = none
      rw [if_neg]
      exact fun e => h k (by simp) (e.symm.trans (by decide))
  | k :: ks, c :: s, h => by
    rw [List.cons_append, afterFold, afterFold]
    split
    · exact afterFold_append rest hr ks s fun x hx => h x (by simp [hx])
    · rfl

theorem afterFold_suffix : ∀ pat s r : Bytes, afterFold pat s = some r → ∃ p, s = p ++ r
  | [], s, r, h => ⟨[], by simpa [afterFold] using h⟩
  | k :: ks, [], r, h => by simp [afterFold] at h
  | k :: ks, c :: s, r, h => by
    rw [afterFold] at h
    split at h
    · obtain ⟨p, rfl⟩ := afterFold_suffix ks s r h
      exact ⟨c :: p, rfl⟩
    · cases h

theorem dropWhile_atEnd (rest : Bytes) (hr : AtEnd rest) : ∀ r : Bytes, 38 ∉ r → (r ++ rest).dropWhile (fun x => x ≠ 38) = rest
  | [], _ => by
    rcases hr with rfl | ⟨r, rfl⟩
    · rfl
    · simp
  | c :: r, h => by
    simp only [List.mem_cons, not_or] at h
    rw [List.cons_append, List.dropWhile_cons, if_pos (by simpa using fun e => h.1 e.symm)]
    exact dropWhile_atEnd rest hr r h.2

/-- The same on settings. -/
def replaceIn (key value : Bytes) : List Bytes → Option (List Bytes)
  | [] => none
  | s :: ss =>
    match afterFold (key ++ [61]) s with
    | some _ => some ((key ++ 61 :: value) :: ss)
    | none => (replaceIn key value ss).map fun r => s :: r

theorem intercalate_cons_cons (sep : UInt8) (s t : Bytes) (ss : List Bytes) :
    List.intercalate [sep] (s :: t :: ss) = s ++ sep :: List.intercalate [sep] (t :: ss) := by simp [List.intercalate]

theorem intercalate_append_single (sep : UInt8) (t : Bytes) : ∀ ss : List Bytes, ss ≠ [] →
    List.intercalate [sep] (ss ++ [t]) = List.intercalate [sep] ss ++ sep :: t
  | [], h => absurd rfl h
  | [s], _ => by simp [List.intercalate]
  | s :: s' :: ss, _ => by
    rw [List.cons_append, List.cons_append, intercalate_cons_cons, ← List.cons_append, intercalate_append_single sep t (s' :: ss) (by simp),
      intercalate_cons_cons]
    simp

theorem replaceIn_ne_nil {key value : Bytes} : ∀ {ss r : List Bytes}, replaceIn key value ss = some r → r ≠ []
  | [], r, h => by cases h
  | s :: ss, r, h => by
    rw [replaceIn] at h
    split at h
    · cases h; simp
    · obtain ⟨r', _, rfl⟩ := Option.map_eq_some_iff.1 h; simp

theorem replaceSetting_settings {key value : Bytes} (hk : ∀ k ∈ key ++ [61], foldCase k ≠ 38) :
    ∀ (ss : List Bytes), ss ≠ [] → (∀ s ∈ ss, 38 ∉ s ∧ 63 ∉ s) → ∀ c : UInt8, c = 63 ∨ c = 38 →
      replaceSetting key value (c :: List.intercalate [38] ss) = (replaceIn key value ss).map fun r => c :: List.intercalate [38] r
  | [], h, _, _, _ => absurd rfl h
  | [s], _, hs, c, hc => by
    obtain ⟨h38, h63⟩ := hs s (by simp)
    have e : List.intercalate [38] [s] = s := by simp [List.intercalate]
    rw [e, replaceSetting, if_pos hc, replaceIn]
    cases h : afterFold (key ++ [61]) s with
    | some r =>
      obtain ⟨p, rfl⟩ := afterFold_suffix _ _ _ h
      have := dropWhile_atEnd [] (.inl rfl) r fun e => h38 (by simp [e])
      rw [List.append_nil] at this
      simp only [this, Option.map_some, List.append_nil]
      simp [List.intercalate]
    | none =>
      have := replaceSetting_skip key value s [] h63 h38
      rw [List.append_nil] at this
      rw [this]
      rfl
  | s :: t :: ss, _, hs, c, hc => by
    obtain ⟨h38, h63⟩ := hs s (by simp)
    have ih := replaceSetting_settings (value := value) hk (t :: ss) (by simp) (fun x hx => hs x (List.mem_cons_of_mem _ hx)) 38 (.inr rfl)
    have hend : AtEnd (38 :: List.intercalate [38] (t :: ss)) := .inr ⟨_, rfl⟩
    rw [intercalate_cons_cons, replaceSetting, if_pos hc, replaceIn, afterFold_append _ hend _ _ hk]
    cases h : afterFold (key ++ [61]) s with
    | some r =>
      obtain ⟨p, rfl⟩ := afterFold_suffix _ _ _ h
      have := dropWhile_atEnd _ hend r fun e => h38 (by simp [e])
      simp only [this, Option.map_some]
      simp [intercalate_cons_cons]
    | none =>
      simp only [Option.map_none]
      rw [replaceSetting_skip _ _ _ _ h63 h38, ih]
      cases hr : replaceIn key value (t :: ss) with
      | none => rfl
      | some r =>
        have hne := replaceIn_ne_nil hr
        obtain ⟨x, xs, rfl⟩ := List.exists_cons_of_ne_nil hne
        simp [intercalate_cons_cons]

/-- What the menu does to the settings. -/
def setSetting (key value : Bytes) (ss : List Bytes) : List Bytes :=
  match replaceIn key value ss with
  | some r => r
  | none => ss ++ [key ++ 61 :: value]

theorem update_eq {key value : Bytes} (hk : ∀ k ∈ key ++ [61], foldCase k ≠ 38) {path : Bytes} (hp : 63 ∉ path ∧ 38 ∉ path) :
    (∀ ss : List Bytes, ss ≠ [] → (∀ s ∈ ss, 38 ∉ s ∧ 63 ∉ s) →
      updateQueryStringParameter (path ++ 63 :: List.intercalate [38] ss) key value =
        path ++ 63 :: List.intercalate [38] (setSetting key value ss)) ∧
    updateQueryStringParameter path key value = path ++ 63 :: List.intercalate [38] (setSetting key value []) := by
  constructor
  · intro ss hne hs
    rw [updateQueryStringParameter, replaceSetting_skip _ _ _ _ hp.1 hp.2, replaceSetting_settings hk ss hne hs 63 (.inl rfl), setSetting]
    cases h : replaceIn key value ss with
    | some r => simp
    | none =>
      simp only [Option.map_none]
      rw [if_pos (by simp), intercalate_append_single _ _ _ hne]
      simp
  · have := replaceSetting_skip key value path [] hp.1 hp.2
    rw [List.append_nil] at this
    rw [updateQueryStringParameter, this]
    simp only [replaceSetting, Option.map_none]
    rw [if_neg hp.1]
    simp [setSetting, replaceIn, List.intercalate]

/-! ## What the settings say -/

/-- The first value of a key in settings. -/
def firstOf (key : Bytes) (ss : List Bytes) : Bytes :=
  match (ss.filterMap querySetting).find? (fun kv => kv.1 = key) with
  | none => []
  | some kv => kv.2

theorem queryGet_firstOf (key : Bytes) (ss : List Bytes) (h : ∀ s ∈ ss, 38 ∉ s) :
    queryGet (List.intercalate [38] ss) key = firstOf key ss := by
  cases ss with
  | nil => rfl
  | cons s ss => rw [queryGet, splitOn_intercalate 38 _ h (by simp)]; rfl

theorem firstOf_cons (key s : Bytes) (ss : List Bytes) :
    firstOf key (s :: ss) = match querySetting s with
      | some kv => if kv.1 = key then kv.2 else firstOf key ss
      | none => firstOf key ss := by
  unfold firstOf
  rw [List.filterMap_cons]
  cases h : querySetting s with
  | none => rfl
  | some kv =>
    simp only
    rw [List.find?_cons]
    by_cases e : kv.1 = key
    · simp [e]
    · simp [e]

theorem afterFold_iff : ∀ pat s : Bytes, (∃ r, afterFold pat s = some r) ↔ ∃ v, s.map foldCase = pat.map foldCase ++ v
  | [], s => by simp [afterFold]
  | k :: ks, [] => by simp [afterFold]
  | k :: ks, c :: s => by
    rw [afterFold]
    by_cases h : foldCase c = foldCase k
    · rw [if_pos h, afterFold_iff ks s]; simp [h]
    · rw [if_neg h]; simp [h]

/-- Settings among which the view mode is written plainly. -/
def PlainSettings (ss : List Bytes) : Prop :=
  ∀ s ∈ ss, ((∃ v, Sets s b!"view-mode" v) ∨ ∃ r, afterFold (b!"view-mode" ++ [61]) s = some r) → ∃ v, s = b!"view-mode=" ++ v

theorem foldCase_modes : (b!"view-mode" ++ [61]).map foldCase = b!"view-mode=" := by decide

theorem plainModes_iff (query : Bytes) : PlainModes query ↔
    ∃ settings : List Bytes, (∀ s ∈ settings, 38 ∉ s) ∧ query = List.intercalate [38] settings ∧ PlainSettings settings := by
  unfold PlainModes PlainSettings
  simp only [afterFold_iff, foldCase_modes]
  rfl

theorem afterFold_plain (v : Bytes) : afterFold (b!"view-mode" ++ [61]) (b!"view-mode=" ++ v) = some v := rfl

/-- A plain setting sets nothing but the view mode. -/
theorem plain_sets {v : Bytes} {kv : Bytes × Bytes} (h : querySetting (b!"view-mode=" ++ v) = some kv) : kv.1 = b!"view-mode" := by
  have hc : cutAt 61 (b!"view-mode" ++ 61 :: v) = (b!"view-mode", v) := (cutAt_iff _ _ _ _).2 ⟨by decide, .inl rfl⟩
  have e : b!"view-mode=" ++ v = b!"view-mode" ++ 61 :: v := rfl
  rw [e, querySetting] at h
  split at h
  · cases h
  · rw [hc] at h
    have eu : queryUnescape b!"view-mode" = some b!"view-mode" := rfl
    rw [eu] at h
    split at h
    · rename_i h1 _
      cases h
      simpa using h1.symm
    · cases h

theorem mode_setting {name : Bytes} (hn : ModeName name) : querySetting (b!"view-mode" ++ 61 :: name) = some (b!"view-mode", name) := by
  rcases hn with rfl | rfl | rfl <;> decide

theorem setSetting_spec {name : Bytes} (hn : ModeName name) : ∀ ss : List Bytes, PlainSettings ss →
    firstOf b!"view-mode" (setSetting b!"view-mode" name ss) = name ∧
      (∀ k, k ≠ b!"view-mode" → firstOf k (setSetting b!"view-mode" name ss) = firstOf k ss)
  | [], _ => by
    have e : setSetting b!"view-mode" name [] = [b!"view-mode" ++ 61 :: name] := rfl
    rw [e]
    constructor
    · rw [firstOf_cons, mode_setting hn]; simp
    · intro k hk
      rw [firstOf_cons, mode_setting hn]
      simp only
      rw [if_neg fun e => hk e.symm]
  | s :: ss, h => by
    have ih := setSetting_spec hn ss fun x hx => h x (List.mem_cons_of_mem _ hx)
    have hs := h s (by simp)
    cases ha : afterFold (b!"view-mode" ++ [61]) s with
    | some r =>
      obtain ⟨v, rfl⟩ := hs (.inr ⟨r, ha⟩)
      have e : setSetting b!"view-mode" name ((b!"view-mode=" ++ v) :: ss) = (b!"view-mode" ++ 61 :: name) :: ss := by
        rw [setSetting, replaceIn, ha]
      rw [e]
      constructor
      · rw [firstOf_cons, mode_setting hn]; simp
      · intro k hk
        rw [firstOf_cons, firstOf_cons, mode_setting hn]
        simp only
        rw [if_neg fun e => hk e.symm]
        cases hq : querySetting (b!"view-mode=" ++ v) with
        | none => rfl
        | some kv => simp only; rw [if_neg fun e => hk (by rw [← e, plain_sets hq])]
    | none =>
      have e : setSetting b!"view-mode" name (s :: ss) = s :: setSetting b!"view-mode" name ss := by
        rw [setSetting, setSetting, replaceIn, ha]
        simp only
        cases replaceIn b!"view-mode" name ss <;> rfl
      rw [e]
      constructor
      · rw [firstOf_cons]
        cases hq : querySetting s with
        | none => exact ih.1
        | some kv =>
          simp only
          rw [if_neg]
          · exact ih.1
          · intro e
            obtain ⟨v, rfl⟩ := hs (.inl ⟨kv.2, (querySetting_iff _ _ _).1 (by rw [hq, ← e])⟩)
            rw [afterFold_plain] at ha
            cases ha
      · intro k hk
        rw [firstOf_cons, firstOf_cons, ih.2 k hk]

theorem setSetting_mem {name : Bytes} : ∀ (ss : List Bytes) (x : Bytes), x ∈ setSetting b!"view-mode" name ss →
    x ∈ ss ∨ x = b!"view-mode" ++ 61 :: name
  | [], x, h => .inr (by simpa [setSetting, replaceIn] using h)
  | s :: ss, x, h => by
    cases ha : afterFold (b!"view-mode" ++ [61]) s with
    | some r =>
      rw [setSetting, replaceIn, ha] at h
      simp only [List.mem_cons] at h ⊢
      rcases h with h | h
      · exact .inr h
      · exact .inl (.inr h)
    | none =>
      have e : setSetting b!"view-mode" name (s :: ss) = s :: setSetting b!"view-mode" name ss := by
        rw [setSetting, setSetting, replaceIn, ha]
        simp only
        cases replaceIn b!"view-mode" name ss <;> rfl
      rw [e] at h
      rcases List.mem_cons.1 h with rfl | h
      · exact .inl (by simp)
      · rcases setSetting_mem ss x h with h | h
        · exact .inl (by simp [h])
        · exact .inr h

theorem mem_intercalate {c : UInt8} : ∀ {ss : List Bytes}, c ∈ List.intercalate [38] ss → c = 38 ∨ ∃ s ∈ ss, c ∈ s
  | [], h => by simp [List.intercalate] at h
  | [s], h => .inr ⟨s, by simp, by simpa [List.intercalate] using h⟩
  | s :: t :: ss, h => by
    rw [intercalate_cons_cons, List.mem_append, List.mem_cons] at h
    rcases h with h | h | h
    · exact .inr ⟨s, by simp, h⟩
    · exact .inl h
    · rcases mem_intercalate h with h | ⟨x, hx, h⟩
      · exact .inl h
      · exact .inr ⟨x, by simp only [List.mem_cons] at hx ⊢; tauto, h⟩

theorem mem_of_intercalate {c : UInt8} : ∀ {ss : List Bytes} {s : Bytes}, s ∈ ss → c ∈ s → c ∈ List.intercalate [38] ss
  | [], _, h, _ => by cases h
  | [t], s, h, hc => by simp only [List.mem_singleton] at h; subst h; simpa [List.intercalate] using hc
  | t :: u :: ss, s, h, hc => by
    rw [intercalate_cons_cons, List.mem_append, List.mem_cons]
    rcases List.mem_cons.1 h with rfl | h
    · exact .inl hc
    · exact .inr (.inr (mem_of_intercalate h hc))

end Appdash
