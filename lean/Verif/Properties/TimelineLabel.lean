import Verif.Spec.TimelineLabel

/-!
# Properties C148 and C149: the labels of the timeline, and the views below it
-/

namespace Appdash

open Spec

/-- **C148**, the expectation: the label of a span in the timeline is its name, or the beginning of its name. -/
def LabelsAreNames : Prop := ∀ name n, Abbreviates (drawnLabel name n) name

/-- **C148** (escapes are shown).  The label of a span "a&b" is "a&amp;b". -/
theorem labels_show_escapes : ¬ LabelsAreNames := by
  intro H
  rcases H [97, 38, 98] 1 with h | ⟨k, h⟩
  · exact absurd h (by decide)
  · have h' := congrArg (fun l => l.getLast?) h
    simp [drawnLabel, relabel, innerHTML, innerUnit, shortenLabel] at h'

-- With a second timespan, the escape is escaped again.
example : drawnLabel [97, 38, 98] 1 = "a&amp;b".toList.map Char.toNat ∧ drawnLabel [97, 38, 98] 2 = "a&amp;amp;b".toList.map Char.toNat ∧
    drawnLabel [97, 38, 98] 3 = "a&amp;amp;amp...".toList.map Char.toNat := by decide

theorem innerHTML_plain {text : List Nat} (h : ∀ c ∈ text, ¬ Escaped c) : innerHTML text = text := by
  induction text with
  | nil => rfl
  | cons c l ih =>
    have hc := h c (List.mem_cons_self ..)
    simp only [Escaped, not_or] at hc
    rw [innerHTML, List.flatMap_cons, innerUnit, if_neg hc.1, if_neg hc.2.2.2, if_neg hc.2.1, if_neg hc.2.2.1]
    exact congrArg (c :: ·) (ih fun x hx => h x (List.mem_cons_of_mem _ hx))

/-- **C148** (plain names).  If the name has none of these characters, the label is the name if that has at most 13 characters, and otherwise
the first 13 characters followed by three dots, whatever the number of timespans. -/
theorem plain_labels_partial {name : List Nat} (h : ∀ c ∈ name, ¬ Escaped c) (n : Nat) :
    drawnLabel name (n + 1) = if name.length ≤ 13 then name else name.take 13 ++ [46, 46, 46] := by
  have key : ∀ text : List Nat, (∀ c ∈ text, ¬ Escaped c) → relabel text = if text.length ≤ 13 then text else text.take 13 ++ [46, 46, 46] := by
    intro text ht
    rw [relabel, innerHTML_plain ht, shortenLabel]
    by_cases e : text.length ≤ 13
    · rw [if_pos (by omega), if_pos e]
    · rw [if_neg (by omega), if_neg e]
  induction n with
  | zero => exact key name h
  | succ n ih =>
    rw [drawnLabel, ih, key]
    · split
      · rfl
      · rename_i e
        have hl : (name.take 13).length = 13 := by rw [List.length_take]; omega
        rw [if_neg (by rw [List.length_append, hl]; simp), List.take_append_of_le_length (by omega), List.take_take]
        simp
    · intro c hc
      split at hc
      · exact h c hc
      · rcases List.mem_append.1 hc with hc | hc
        · exact h c (List.mem_of_mem_take hc)
        · simp at hc
          subst hc
          simp [Escaped]

example : (∀ c ∈ "GET /articles".toList.map Char.toNat, ¬ Escaped c) ∧ (∀ c ∈ "GET /articles/1".toList.map Char.toNat, ¬ Escaped c) ∧
    drawnLabel ("GET /articles".toList.map Char.toNat) 1 = "GET /articles".toList.map Char.toNat ∧
    drawnLabel ("GET /articles/1".toList.map Char.toNat) 2 = "GET /articles...".toList.map Char.toNat := by
  unfold Escaped
  decide

/-- **C148** (length).  Whatever the name, a label has at most 16 characters. -/
theorem labels_are_short (name : List Nat) (n : Nat) : (drawnLabel name (n + 1)).length ≤ 16 := by
  rw [drawnLabel, relabel, shortenLabel]
  split
  · omega
  · simp
    omega

theorem innerHTML_longer {text : List Nat} : text.length ≤ (innerHTML text).length ∧
    ((∃ c ∈ text, Escaped c) → text.length < (innerHTML text).length) := by
  induction text with
  | nil => exact ⟨Nat.le_refl _, fun ⟨_, h, _⟩ => by cases h⟩
  | cons c l ih =>
    have e : (innerHTML (c :: l)).length = (innerUnit c).length + (innerHTML l).length := by
      rw [innerHTML, List.flatMap_cons, List.length_append]
      rfl
    have h1 : 1 ≤ (innerUnit c).length ∧ (Escaped c → 1 < (innerUnit c).length) := by
      unfold innerUnit Escaped
      split
      · simp
      · split
        · simp
        · split
          · simp
          · split
            · simp
            · simp
              omega
    rw [e, List.length_cons]
    refine ⟨by omega, ?_⟩
    rintro ⟨x, hx, hx'⟩
    rcases List.mem_cons.1 hx with rfl | hx
    · have := h1.2 hx'
      omega
    · have := ih.2 ⟨x, hx, hx'⟩
      omega

/-- **C148** (names with these characters).  If the name is short enough for the label and one of these characters is in it, the label is
another text. -/
theorem escaped_labels_differ {name : List Nat} (hl : name.length ≤ 13) (h : ∃ c ∈ name, Escaped c) (n : Nat) :
    drawnLabel name (n + 1) ≠ name := by
  have step : ∀ text : List Nat, name.length < (innerHTML text).length → name.length < (relabel text).length := by
    intro text ht
    rw [relabel, shortenLabel]
    split
    · exact ht
    · rw [List.length_append, List.length_take]
      simp
      omega
  have longer : name.length < (drawnLabel name (n + 1)).length := by
    induction n with
    | zero => exact step name (innerHTML_longer.2 h)
    | succ n ih => exact step _ (Nat.lt_of_lt_of_le ih innerHTML_longer.1)
  intro e
  rw [e] at longer
  exact Nat.lt_irrefl _ longer

example : drawnLabel ("/s?a&b".toList.map Char.toNat) 1 = "/s?a&amp;b".toList.map Char.toNat := by decide

/-- **C149**.  Whatever buttons have been clicked, exactly one of the three views is displayed: that of the last button, and the data view
at first. -/
theorem one_view_displayed (clicks : List TraceView) (v : TraceView) :
    Displayed (clicks.foldl ViewsShown.change .initial) v ↔ v = clicks.getLast?.getD .data := by
  rcases List.eq_nil_or_concat clicks with rfl | ⟨l, x, rfl⟩
  · cases v <;> simp [Displayed, ViewsShown.initial]
  · rw [List.concat_eq_append, List.foldl_append, List.getLast?_append]
    generalize l.foldl ViewsShown.change .initial = s
    cases v <;> cases x <;> simp [Displayed, ViewsShown.change]

example : [TraceView.profile, .verbose].foldl ViewsShown.change .initial = ⟨false, true, false⟩ := by decide

end Appdash
