import Verif.Spec.RouterPaths
import Verif.Proofs.Router
import Verif.Proofs.WebApp
import Verif.Proofs.Query

/-! # Which paths the router takes for pages of traces -/

namespace Appdash

theorem parts_text {p : Bytes} {ps : List Bytes} (h : pathParts p = some ps) :
    p = (ps.map fun p => 47 :: p).flatten ∧ ∀ q ∈ ps, (47 : UInt8) ∉ q := by
  cases p with
  | nil => simp [pathParts] at h
  | cons c s =>
    simp only [pathParts] at h
    split at h
    · rename_i hc
      subst hc
      simp only [Option.some.injEq] at h
      exact ⟨text_of_split ps s h, h ▸ (intercalate_splitOn 47 s).2⟩
    · simp at h

theorem pathParts_join {a : Bytes} {ps : List Bytes} (h : ∀ q ∈ a :: ps, (47 : UInt8) ∉ q) :
    pathParts ((a :: ps).map fun p => 47 :: p).flatten = some (a :: ps) := by
  show some (splitOn 47 (a ++ (ps.map fun p => 47 :: p).flatten)) = _
  congr 1
  induction ps generalizing a with
  | nil => simpa using splitOn_no_sep 47 a (h a (by simp))
  | cons b ps ih =>
    show splitOn 47 (a ++ 47 :: (b ++ _)) = _
    rw [splitOn_append _ _ _ (h a (by simp)), ih (fun q hq => h q (List.mem_cons_of_mem _ hq))]

theorem findRoute_page {p : Bytes} {ps : List Bytes} (hp : pathParts p = some ps) {n : RouteName} {v : Vars}
    (hn : servedByTrace n = true) (h : findRoute .get p routes = .to n v) :
    (∃ x, ps = [b!"traces", x] ∧ x ≠ [] ∧ n = .trace ∧ v = [(b!"Trace", x)]) ∨
    (∃ x, ps = [b!"traces", x, b!"profile"] ∧ x ≠ [] ∧ n = .traceProfile ∧ v = [(b!"Trace", x)]) ∨
    (∃ x y, ps = [b!"traces", x, y] ∧ x ≠ [] ∧ y ≠ [] ∧ y ≠ b!"profile" ∧ n = .traceSpan ∧ v = [(b!"Trace", x), (b!"Span", y)]) ∨
    ∃ x y, ps = [b!"traces", x, y, b!"profile"] ∧ x ≠ [] ∧ y ≠ [] ∧ n = .traceSpanProfile ∧ v = [(b!"Trace", x), (b!"Span", y)] := by
  by_cases hst : (b!"/static/").isPrefixOf p = true
  · match ps, hp with
    | [], hp =>
      simp [routes, findRoute, Pattern.matches, hp, matchSegs, hst] at h
      obtain ⟨rfl, -⟩ := h
      simp [servedByTrace] at hn
    | a :: ps, hp =>
      by_cases ha : a = [] ∧ ps = []
      · obtain ⟨rfl, rfl⟩ := ha
        simp [routes, findRoute, Pattern.matches, hp, matchSegs] at h; obtain ⟨rfl, -⟩ := h; simp [servedByTrace] at hn
      · have : matchSegs [.lit []] (a :: ps) = none := by
          by_cases hb : a = []
          · cases ps with
            | nil => exact absurd ⟨hb, rfl⟩ ha
            | cons b ps => simp [matchSegs, hb]
          · simp [matchSegs, hb]
        simp [routes, findRoute, Pattern.matches, hp, this, hst] at h; obtain ⟨rfl, -⟩ := h; simp [servedByTrace] at hn
  · simp only [Bool.not_eq_true] at hst
    match ps, hp with
    | [], hp => simp [routes, findRoute, Pattern.matches, hp, matchSegs, hst] at h
    | [a], hp =>
      simp [routes, findRoute, Pattern.matches, hp, matchSegs, hst] at h
      repeat' split at h
      all_goals first | cases h; simp [servedByTrace] at hn | simp_all [servedByTrace]
    | [a, b], hp =>
      by_cases hb : b = []
      · subst hb
        simp [routes, findRoute, Pattern.matches, hp, matchSegs, hst] at h
      · simp [routes, findRoute, Pattern.matches, hp, matchSegs, hst, hb] at h
        by_cases ha : a = b!"traces"
        · simp [ha] at h
          obtain ⟨rfl, rfl⟩ := h
          exact .inl ⟨b, by rw [ha], hb, rfl, rfl⟩
        · simp [ha] at h
          split at h
          · cases h
          · cases h
            simp [servedByTrace] at hn
    | [a, b, c], hp =>
      by_cases ha : a = b!"traces"
      · by_cases hb : b = []
        · subst hb; simp [routes, findRoute, Pattern.matches, hp, matchSegs, hst] at h
        · by_cases hc : c = b!"profile"
          · simp [routes, findRoute, Pattern.matches, hp, matchSegs, hst, ha, hb, hc] at h
            obtain ⟨rfl, rfl⟩ := h
            exact .inr (.inl ⟨b, by rw [ha, hc], hb, rfl, rfl⟩)
          · by_cases hc' : c = []
            · simp [routes, findRoute, Pattern.matches, hp, matchSegs, hst, ha, hb, hc'] at h
            · simp [routes, findRoute, Pattern.matches, hp, matchSegs, hst, ha, hb, hc, hc'] at h
              obtain ⟨rfl, rfl⟩ := h
              exact .inr (.inr (.inl ⟨b, c, by rw [ha], hb, hc', hc, rfl, rfl⟩))
      · simp [routes, findRoute, Pattern.matches, hp, matchSegs, hst, ha] at h
    | [a, b, c, d], hp =>
      by_cases ha : a = b!"traces"
      · by_cases hb : b = []
        · subst hb; simp [routes, findRoute, Pattern.matches, hp, matchSegs, hst] at h
        · by_cases hc : c = []
          · subst hc; simp [routes, findRoute, Pattern.matches, hp, matchSegs, hst] at h
          · by_cases hd : d = b!"profile"
            · simp [routes, findRoute, Pattern.matches, hp, matchSegs, hst, ha, hb, hc, hd] at h
              obtain ⟨rfl, rfl⟩ := h
              exact .inr (.inr (.inr ⟨b, c, by rw [ha, hd], hb, hc, rfl, rfl⟩))
            · simp [routes, findRoute, Pattern.matches, hp, matchSegs, hst, ha, hb, hc, hd] at h
      · simp [routes, findRoute, Pattern.matches, hp, matchSegs, hst, ha] at h
    | a :: b :: c :: d :: e :: r, hp =>
      simp [routes, findRoute, Pattern.matches, hp, matchSegs, hst] at h

theorem page_path_names {ps : List Bytes} (h : cleanParts ps = true) (hs : ∀ q ∈ ps, (47 : UInt8) ∉ q) :
    ∀ q ∈ ps, q ≠ [] → PathName q := by
  induction ps with
  | nil => simp
  | cons a ps ih =>
    intro q hq hne
    cases ps with
    | nil =>
      obtain rfl : q = a := by simpa using hq
      simp [cleanParts] at h
      exact ⟨hne, hs q (by simp), h.1, h.2⟩
    | cons b ps =>
      simp only [cleanParts, Bool.and_eq_true, bne_iff_ne, ne_eq] at h
      rcases List.mem_cons.1 hq with rfl | hq
      · exact ⟨hne, hs q (by simp), h.1.1.2, h.1.2⟩
      · exact ih h.2 (fun x hx => hs x (List.mem_cons_of_mem _ hx)) q hq hne

theorem dispatch_findRoute {m : Method} {p : Bytes} {n : RouteName} {v : Vars} (h : dispatch m p = .to n v) : findRoute m p routes = .to n v := by
  unfold dispatch at h
  split at h
  · cases h
  · split at h
    · exact h
    · cases h

end Appdash
