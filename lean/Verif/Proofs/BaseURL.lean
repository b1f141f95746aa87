import Verif.Spec.BaseURL
import Verif.Proofs.Router

/-!
# Lemmas about base URLs
-/

namespace Appdash

open Spec

theorem splitLast_of {c : UInt8} : ∀ (a : Bytes) {b : Bytes}, c ∉ b → splitLast c (a ++ c :: b) = some (a, b)
  | [], b, hb => by
    have : ∀ b : Bytes, c ∉ b → splitLast c b = none := by
      intro b
      induction b with
      | nil => intro _; rfl
      | cons x b ih =>
        intro h
        simp only [List.mem_cons, not_or] at h
        rw [splitLast, ih h.2]
        simp [Ne.symm h.1]
    simp [splitLast, this b hb]
  | x :: a, b, hb => by
    rw [List.cons_append, splitLast, splitLast_of a hb]

theorem splitFirst_of {c : UInt8} : ∀ {a : Bytes} (b : Bytes), c ∉ a → splitFirst c (a ++ c :: b) = some (a, b)
  | [], b, _ => by simp [splitFirst]
  | x :: a, b, h => by
    simp only [List.mem_cons, not_or] at h
    rw [List.cons_append, splitFirst, splitFirst_of b h.2]
    simp [Ne.symm h.1]

/-- An address in brackets is split as it was written. -/
theorem splitHostPort_brackets {host port : Bytes} (h : GoodAddress host port) :
    splitHostPort (b!"[" ++ host ++ b!"]:" ++ port) = some (host, port) := by
  obtain ⟨h1, h2, h3, h4, h5⟩ := h
  have e : (b!"[" ++ host ++ b!"]:" ++ port : Bytes) = (91 :: (host ++ [93])) ++ 58 :: port := by simp
  have e' : (b!"[" ++ host ++ b!"]:" ++ port : Bytes) = (91 :: host) ++ 93 :: (58 :: port) := by simp
  unfold splitHostPort
  rw [e, splitLast_of _ h3, ← e, e', splitFirst_of _ (by simp [h2])]
  simp [h1, h4, h5]

/-- An address is split as it was written. -/
theorem splitHostPort_address {host port : Bytes} (h : GoodAddress host port) : splitHostPort (address host port) = some (host, port) := by
  obtain ⟨h1, h2, h3, h4, h5⟩ := h
  unfold address
  split
  · rename_i hc
    exact splitHostPort_brackets ⟨h1, h2, h3, h4, h5⟩
  · rename_i hc
    have e : (host ++ b!":" ++ port : Bytes) = host ++ 58 :: port := by simp
    unfold splitHostPort
    rw [e, splitLast_of _ h3]
    have hh : (host ++ 58 :: port).head? ≠ some 91 := by
      cases host with
      | nil => simp
      | cons x r => simp only [List.mem_cons, not_or] at h1; simpa using Ne.symm h1.1
    simp only [if_neg hh]
    simp [hc, h1, h2, h4, h5]

theorem splitLast_some {c : UInt8} : ∀ {s a b : Bytes}, splitLast c s = some (a, b) → s = a ++ c :: b ∧ c ∉ b
  | [], a, b, h => by simp [splitLast] at h
  | x :: s, a, b, h => by
    rw [splitLast] at h
    cases hs : splitLast c s with
    | some p =>
      obtain ⟨a', b'⟩ := p
      rw [hs] at h
      simp only [Option.some.injEq, Prod.mk.injEq] at h
      obtain ⟨rfl, rfl⟩ := h
      obtain ⟨h1, h2⟩ := splitLast_some hs
      exact ⟨by rw [h1]; rfl, h2⟩
    | none =>
      rw [hs] at h
      by_cases hx : x = c
      · simp only [hx, if_true, Option.some.injEq, Prod.mk.injEq] at h
        obtain ⟨rfl, rfl⟩ := h
        refine ⟨by rw [hx]; rfl, ?_⟩
        clear hx
        have : ∀ t : Bytes, splitLast c t = none → c ∉ t := by
          intro t
          induction t with
          | nil => simp
          | cons y t ih =>
            intro ht
            rw [splitLast] at ht
            cases h3 : splitLast c t with
            | some p => rw [h3] at ht; simp at ht
            | none =>
              rw [h3] at ht
              by_cases hy : y = c
              · simp [hy] at ht
              · simp only [List.mem_cons, not_or]
                exact ⟨Ne.symm hy, ih h3⟩
        exact this s hs
      · simp [hx] at h

theorem splitFirst_some {c : UInt8} : ∀ {s a b : Bytes}, splitFirst c s = some (a, b) → s = a ++ c :: b ∧ c ∉ a
  | [], a, b, h => by simp [splitFirst] at h
  | x :: s, a, b, h => by
    rw [splitFirst] at h
    by_cases hx : x = c
    · simp only [hx, if_true, Option.some.injEq, Prod.mk.injEq] at h
      obtain ⟨rfl, rfl⟩ := h
      simp [hx]
    · simp only [hx, if_false] at h
      cases hs : splitFirst c s with
      | none => rw [hs] at h; simp at h
      | some p =>
        obtain ⟨a', b'⟩ := p
        rw [hs] at h
        simp only [Option.some.injEq, Prod.mk.injEq] at h
        obtain ⟨rfl, rfl⟩ := h
        obtain ⟨h1, h2⟩ := splitFirst_some hs
        refine ⟨by rw [h1]; rfl, ?_⟩
        simp only [List.mem_cons, not_or]
        exact ⟨Ne.symm hx, h2⟩

theorem splitHostPort_some {s host port : Bytes} (h : splitHostPort s = some (host, port)) :
    GoodAddress host port ∧ (s = b!"[" ++ host ++ b!"]:" ++ port ∨ 58 ∉ host ∧ s = host ++ b!":" ++ port) := by
  rw [splitHostPort] at h
  cases hl : splitLast 58 s with
  | none => rw [hl] at h; simp at h
  | some p =>
    obtain ⟨before, port'⟩ := p
    rw [hl] at h
    obtain ⟨e1, n1⟩ := splitLast_some hl
    dsimp only at h
    by_cases hb : s.head? = some 91
    · simp only [hb, if_true] at h
      cases hf : splitFirst 93 s with
      | none => rw [hf] at h; simp at h
      | some p =>
        obtain ⟨hh, rest⟩ := p
        rw [hf] at h
        obtain ⟨e2, n2⟩ := splitFirst_some hf
        dsimp only at h
        split at h
        · next hc =>
          obtain ⟨c1, c2, c3⟩ := hc
          simp only [Option.some.injEq, Prod.mk.injEq] at h
          obtain ⟨rfl, rfl⟩ := h
          cases hh with
          | nil => rw [e2] at hb; simp at hb
          | cons x hh =>
            rw [e2] at hb
            simp only [List.cons_append, List.head?_cons, Option.some.injEq] at hb
            subst hb
            have e3 : s = 91 :: hh ++ [93] ++ 58 :: port' := by rw [e1, ← c1]
            have c2' : 91 ∉ hh ++ [93] ++ 58 :: port' := by rw [e3] at c2; simpa using c2
            have e4 : rest = 58 :: port' := by
              have : (91 :: hh) ++ 93 :: rest = (91 :: hh) ++ 93 :: (58 :: port') := by rw [← e2, e3]; simp
              simpa using this
            rw [e4] at c3
            simp at c2' c3 n2
            unfold GoodAddress
            simp only [List.tail_cons]
            grind
        · simp at h
    · simp only [hb, if_false] at h
      split at h
      · simp at h
      · next hc =>
        simp only [Option.some.injEq, Prod.mk.injEq] at h
        obtain ⟨rfl, rfl⟩ := h
        unfold GoodAddress
        subst e1
        simp at hc
        grind
theorem requestPath_text {u : BaseURL} (hs : 58 ∉ u.scheme) (hh : 47 ∉ u.host) (hp : u.path.head? = some 47) (s : Bytes) :
    requestPath (u.text ++ s) = u.path ++ s := by
  have e : u.text ++ s = u.scheme ++ 58 :: (47 :: 47 :: (u.host ++ (u.path ++ s))) := by simp [BaseURL.text]
  rw [requestPath, e, splitFirst_of _ hs]
  simp only [Option.elim_some, List.drop_succ_cons, List.drop_zero]
  obtain ⟨r, hr⟩ : ∃ r, u.path = 47 :: r := by
    cases hq : u.path with
    | nil => rw [hq] at hp; cases hp
    | cons x r => rw [hq] at hp; injection hp with hp; exact ⟨r, by rw [hp]⟩
  rw [hr, List.dropWhile_append_of_pos]
  · rfl
  · intro x hx
    simp only [ne_eq, decide_eq_true_eq]
    exact fun h => hh (h ▸ hx)

theorem findRoute_to {m : Method} {p : Bytes} {n : RouteName} {vars : Vars} : ∀ {rs : List Route}, findRoute m p rs = .to n vars →
    ∃ r ∈ rs, r.name = n ∧ r.pattern.matches p = some vars
  | [], h => by cases h
  | r :: rs, h => by
    unfold findRoute at h
    split at h
    · obtain ⟨r', h1, h2⟩ := findRoute_to h
      exact ⟨r', List.mem_cons_of_mem _ h1, h2⟩
    · rename_i v hv
      split at h
      · injection h with h1 h2
        exact ⟨r, List.mem_cons_self, h1, by rw [hv, h2]⟩
      · obtain ⟨r', h1, h2⟩ := findRoute_to h
        exact ⟨r', List.mem_cons_of_mem _ h1, h2⟩

theorem dispatch_to {p : Bytes} {n : RouteName} {vars : Vars} {m : Method} (h : dispatch m p = .to n vars) :
    ∃ r ∈ routes, r.name = n ∧ r.pattern.matches p = some vars := by
  unfold dispatch at h
  split at h
  · cases h
  · split at h
    · exact findRoute_to h
    · cases h

theorem dispatch_to_trace {p x : Bytes} (h : dispatch .get p = .to .trace [(b!"Trace", x)]) : p = b!"/traces/" ++ x := by
  obtain ⟨r, hr, hn, hm⟩ := dispatch_to h
  simp only [routes, List.mem_cons, List.not_mem_nil, or_false] at hr
  have : r = ⟨.trace, .path [.lit b!"traces", .var b!"Trace"], .get⟩ := by
    rcases hr with h | h | h | h | h | h | h | h | h | h | h <;> first | exact h | (rw [h] at hn; cases hn)
  rw [this] at hm
  simp only [Pattern.matches] at hm
  split at hm
  · cases hm
  rename_i ps hps
  cases p with
  | nil => cases hps
  | cons c s =>
    simp only [pathParts] at hps
    split at hps
    · rename_i hc
      subst hc
      injection hps with hps
      match ps, hm with
      | [], hm => cases hm
      | [a], hm => simp only [matchSegs] at hm; split at hm <;> cases hm
      | a :: b :: c :: r, hm =>
        simp only [matchSegs] at hm
        split at hm
        · split at hm
          · cases hm
          · cases hm
        · cases hm
      | [a, b], hm =>
        simp only [matchSegs] at hm
        split at hm
        · rename_i ha
          split at hm
          · cases hm
          · simp only [Option.some.injEq, List.cons.injEq, Prod.mk.injEq, and_true, true_and] at hm
            subst ha hm
            obtain ⟨_, h1 | ⟨s', h1, h2⟩⟩ := splitOn_cons _ _ _ _ hps
            · simp at h1
            · obtain ⟨_, h3 | ⟨s'', h3, h4⟩⟩ := splitOn_cons _ _ _ _ h2
              · rw [h1, h3.2]; rfl
              · exact absurd h4 (splitOn_ne_nil _ _)
        · cases hm
    · cases hps

theorem dispatch_to_static {p : Bytes} {vars : Vars} (h : dispatch .get p = .to .static vars) : (b!"/static/" : Bytes) <+: p := by
  obtain ⟨r, hr, hn, hm⟩ := dispatch_to h
  simp only [routes, List.mem_cons, List.not_mem_nil, or_false] at hr
  have : r = ⟨.static, .pre b!"/static/", .get⟩ := by
    rcases hr with h | h | h | h | h | h | h | h | h | h | h <;> first | exact h | (rw [h] at hn; cases hn)
  rw [this] at hm
  simp only [Pattern.matches] at hm
  split at hm
  · rename_i h; exact List.isPrefixOf_iff_prefix.1 h
  · cases hm

theorem dispatch_static {name : Bytes} (h : cleanParts (splitOn 47 name) = true) :
    dispatch .get (b!"/static/" ++ name) = .to .static [] := by
  have hp : pathParts (b!"/static/" ++ name) = some (b!"static" :: splitOn 47 name) := by
    show some (splitOn 47 (b!"static" ++ 47 :: name)) = _
    simp [splitOn]
  have hc : cleanParts (b!"static" :: splitOn 47 name) = true := by
    cases hs : splitOn 47 name with
    | nil => exact absurd hs (splitOn_ne_nil _ _)
    | cons a r =>
      rw [hs] at h
      simp only [cleanParts, Bool.and_eq_true]
      exact ⟨by decide, h⟩
  have hpre : (b!"/static/" : Bytes).isPrefixOf (b!"/static/" ++ name) = true := List.isPrefixOf_iff_prefix.2 ⟨name, rfl⟩
  unfold dispatch
  rw [hp]
  simp only [hc, if_true]
  unfold routes
  rw [findRoute]
  have h0 : Pattern.matches (.path [.lit []]) (b!"/static/" ++ name) = none := by
    simp only [Pattern.matches, hp]
    simp [matchSegs]
  simp only [h0]
  rw [findRoute]
  have h1 : Pattern.matches (.pre b!"/static/") (b!"/static/" ++ name) = some [] := by
    simp only [Pattern.matches, hpre, if_true]
  simp only [h1, if_true]

end Appdash
