import Verif.Spec.TracesMenu
import Verif.Proofs.TracesScript
import Verif.Proofs.JsonGrammar

namespace Appdash

open Spec

theorem white_space {u : Nat} (h : jsWhite u) : String.utf8EncodeChar (Char.ofNat u) ∈ jsSpaces := by
  have h' : u ∈ [9, 10, 11, 12, 13, 32, 0xA0, 0x1680, 0x2000, 0x2001, 0x2002, 0x2003, 0x2004, 0x2005, 0x2006, 0x2007, 0x2008, 0x2009, 0x200A,
      0x2028, 0x2029, 0x202F, 0x205F, 0x3000, 0xFEFF] := by
    unfold jsWhite at h
    simp only [List.mem_cons, List.not_mem_nil, or_false]
    omega
  revert u
  intro u _ h'
  have key : ∀ v ∈ ([9, 10, 11, 12, 13, 32, 0xA0, 0x1680, 0x2000, 0x2001, 0x2002, 0x2003, 0x2004, 0x2005, 0x2006, 0x2007, 0x2008, 0x2009, 0x200A,
      0x2028, 0x2029, 0x202F, 0x205F, 0x3000, 0xFEFF] : List Nat), String.utf8EncodeChar (Char.ofNat v) ∈ jsSpaces := by decide +kernel
  exact key u h'

theorem space_white {w : Bytes} (h : w ∈ jsSpaces) : ∃ u, jsWhite u ∧ String.utf8EncodeChar (Char.ofNat u) = w := by
  have key : ∀ w ∈ jsSpaces, ∃ u ∈ ([9, 10, 11, 12, 13, 32, 0xA0, 0x1680, 0x2000, 0x2001, 0x2002, 0x2003, 0x2004, 0x2005, 0x2006, 0x2007, 0x2008,
      0x2009, 0x200A, 0x2028, 0x2029, 0x202F, 0x205F, 0x3000, 0xFEFF] : List Nat), String.utf8EncodeChar (Char.ofNat u) = w := by decide +kernel
  obtain ⟨u, hu, e⟩ := key w h
  refine ⟨u, ?_, e⟩
  simp only [List.mem_cons, List.not_mem_nil, or_false] at hu
  unfold jsWhite
  omega

theorem spaces_prefix_free : ∀ w ∈ jsSpaces, ∀ w' ∈ jsSpaces, w.isPrefixOf w' = true → w = w' := by decide +kernel

theorem spaces_ne_nil : ∀ w ∈ jsSpaces, w ≠ [] := by decide +kernel

/-- A space at the beginning is dropped. -/
theorem dropSpace_append {w s : Bytes} (h : w ∈ jsSpaces) : dropSpace (w ++ s) = some s := by
  have hsome : (dropSpace (w ++ s)).isSome = true := by
    rw [dropSpace, List.findSome?_isSome_iff]
    refine ⟨w, h, ?_⟩
    rw [if_pos (by simp)]
    rfl
  obtain ⟨r, hr⟩ := Option.isSome_iff_exists.1 hsome
  have hr' := hr
  rw [dropSpace] at hr
  obtain ⟨w', hw', he⟩ := List.exists_of_findSome?_eq_some hr
  split at he
  · rename_i hp
    have hp' : w' <+: w ++ s := List.isPrefixOf_iff_prefix.1 hp
    have hq : w <+: w ++ s := List.prefix_append _ _
    have e : w' = w := by
      rcases List.prefix_or_prefix_of_prefix hp' hq with h1 | h1
      · exact spaces_prefix_free _ hw' _ h (List.isPrefixOf_iff_prefix.2 h1)
      · exact (spaces_prefix_free _ h _ hw' (List.isPrefixOf_iff_prefix.2 h1)).symm
    subst e
    rw [hr', ← he]
    simp
  · cases he

theorem dropSpace_some {s r : Bytes} (h : dropSpace s = some r) : ∃ w ∈ jsSpaces, s = w ++ r := by
  obtain ⟨w, hw, he⟩ := List.exists_of_findSome?_eq_some h
  split at he
  · rename_i hp
    obtain ⟨t, rfl⟩ := List.isPrefixOf_iff_prefix.1 hp
    simp at he
    exact ⟨w, hw, by rw [he]⟩
  · cases he

theorem trim_blank {s : Bytes} (h : JsBlank s) : ∀ n, s.length ≤ n → trimStart n s = [] := by
  induction h with
  | nil =>
    intro n _
    cases n with
    | zero => rfl
    | succ n => rfl
  | cons hu _ ih =>
    intro n hn
    have hw := white_space hu
    have hne := spaces_ne_nil _ hw
    have hl : 0 < (String.utf8EncodeChar (Char.ofNat _)).length := List.length_pos_of_ne_nil hne
    rw [List.length_append] at hn
    cases n with
    | zero => omega
    | succ n =>
      rw [trimStart, dropSpace_append hw]
      exact ih n (by omega)

theorem blank_trim : ∀ n s, trimStart n s = [] → JsBlank s := by
  intro n
  induction n with
  | zero =>
    intro s h
    rw [show s = [] from h]
    exact .nil
  | succ n ih =>
    intro s h
    rw [trimStart] at h
    cases hd : dropSpace s with
    | none =>
      rw [hd] at h
      rw [show s = [] from h]
      exact .nil
    | some r =>
      rw [hd] at h
      obtain ⟨w, hw, rfl⟩ := dropSpace_some hd
      obtain ⟨u, hu, rfl⟩ := space_white hw
      exact .cons hu (ih r h)

theorem jsBlank_iff (s : Bytes) : jsBlank s = true ↔ JsBlank s := by
  rw [jsBlank, List.isEmpty_iff]
  exact ⟨blank_trim _ _, fun h => trim_blank h _ (Nat.le_refl _)⟩

/-- The first byte of a JSON value is a printable character of ASCII. -/
theorem jText_first {t : Bytes} {v : JVal} (h : JText t v) : ∃ c s, t = c :: s ∧ 33 ≤ c.toNat ∧ c.toNat ≤ 126 := by
  cases h with
  | null => exact ⟨_, _, rfl, by decide, by decide⟩
  | true => exact ⟨_, _, rfl, by decide, by decide⟩
  | false => exact ⟨_, _, rfl, by decide, by decide⟩
  | str => exact ⟨_, _, rfl, by decide, by decide⟩
  | arr0 => exact ⟨_, _, rfl, by decide, by decide⟩
  | arr => exact ⟨_, _, rfl, by decide, by decide⟩
  | obj0 => exact ⟨_, _, rfl, by decide, by decide⟩
  | obj => exact ⟨_, _, rfl, by decide, by decide⟩
  | num h =>
    obtain ⟨sign, int, frac, exp, rfl, hs, hi, -⟩ := h
    rcases hs with rfl | rfl
    · rcases hi with rfl | ⟨d, ds, rfl, -, hd⟩
      · exact ⟨_, _, rfl, by decide, by decide⟩
      · have := hd d (List.mem_cons_self ..)
        exact ⟨_, _, rfl, by omega, by omega⟩
    · exact ⟨_, _, rfl, by decide, by decide⟩

theorem spaces_first : ∀ w ∈ jsSpaces, ∀ c ∈ w.head?, (33 ≤ c.toNat ∧ c.toNat ≤ 126) = False := by decide +kernel

theorem spaces_blank : ∀ w ∈ jsSpaces, ∀ c ∈ w.head?, (c = 32 ∨ c = 9 ∨ c = 10 ∨ c = 13) → w = [c] := by decide +kernel

/-- A JSON text is not blank. -/
theorem isJSON_not_blank {s : Bytes} {v : JVal} (h : IsJSON s v) : ¬ JsBlank s := by
  obtain ⟨w, t, w', hw, -, ht, rfl⟩ := h
  obtain ⟨c, r, rfl, h1, h2⟩ := jText_first ht
  clear ht
  induction w with
  | nil =>
    intro hb
    generalize hg : ([] ++ (c :: r ++ w') : Bytes) = x at hb
    cases hb with
    | nil => simp at hg
    | cons hu _ =>
      have hm := white_space hu
      generalize String.utf8EncodeChar (Char.ofNat _) = y at hg hm
      cases y with
      | nil => exact spaces_ne_nil _ hm rfl
      | cons d y =>
        simp only [List.nil_append, List.cons_append, List.cons.injEq] at hg
        have := spaces_first _ hm d rfl
        rw [← hg.1] at this
        rw [← this]
        exact ⟨h1, h2⟩
  | cons b w ih =>
    intro hb
    generalize hg : (b :: w ++ (c :: r ++ w') : Bytes) = x at hb
    cases hb with
    | nil => simp at hg
    | cons hu hs =>
      have hm := white_space hu
      generalize String.utf8EncodeChar (Char.ofNat _) = y at hg hm
      cases y with
      | nil => exact spaces_ne_nil _ hm rfl
      | cons d y =>
        have e := List.cons.inj (hg : b :: (w ++ (c :: r ++ w')) = d :: (y ++ _))
        have hy := spaces_blank _ hm d rfl (by rw [← e.1]; exact hw b (List.mem_cons_self ..))
        have hy' : y = [] := (List.cons.inj hy).2
        have e2 : w ++ (c :: r ++ w') = y ++ _ := e.2
        rw [hy', List.nil_append] at e2
        refine ih (fun x hx => hw x (List.mem_cons_of_mem _ hx)) ?_
        rw [e2]
        exact hs

/-- The boxes follow the clicks alone. -/
theorem export_page (f : JVal → Bytes) (m : TracesMenus) : (m.export f).page = m.page ∧ (m.export f).exportShown = true := by
  unfold TracesMenus.export
  dsimp only
  split
  · exact ⟨rfl, rfl⟩
  · split <;> exact ⟨rfl, rfl⟩

theorem run_page (f : JVal → Bytes) (acts : List MenuAct) : ∀ m : TracesMenus,
    (m.run f acts).page = (clicksOf acts).foldl TracesPage.click m.page := by
  induction acts with
  | nil => intro m; rfl
  | cons a acts ih =>
    intro m
    rw [TracesMenus.run, List.foldl_cons]
    refine (ih _).trans ?_
    cases a with
    | click c => rfl
    | exportSelected => rw [TracesMenus.act, (export_page f m).1]; rfl
    | importAction =>
      rw [TracesMenus.act]
      split <;> rfl
    | _ => rfl

/-- One menu at most is shown. -/
theorem run_menus (f : JVal → Bytes) (acts : List MenuAct) : ∀ m : TracesMenus, (m.importShown && m.exportShown) = false →
    ((m.run f acts).importShown && (m.run f acts).exportShown) = false := by
  induction acts with
  | nil => exact fun m h => h
  | cons a acts ih =>
    intro m h
    refine ih (m.act f a) ?_
    cases a with
    | exportSelected =>
      rw [TracesMenus.act, (export_page f m).2, Bool.and_true]
      have : (m.export f).importShown = (m.exportShown && m.importShown) := by
        unfold TracesMenus.export
        dsimp only
        split
        · rfl
        · split <;> rfl
      rw [this, Bool.and_comm]
      exact h
    | importAction =>
      rw [TracesMenus.act]
      split <;> exact h
    | click c => exact h
    | importButton => simp [TracesMenus.act]
    | importCancel => simp [TracesMenus.act]
    | exportCancel => simp [TracesMenus.act]
    | importType s => exact h
    | exportType s => exact h

end Appdash
