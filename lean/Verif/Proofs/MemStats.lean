import Verif.Spec.MemStats

/-! # The loops of `logColumns` (C163) -/

namespace Appdash.MemStats
open Spec

theorem repeat_spaces (n : Nat) : repeatText b!" " n = spaces n := by
  induction n with
  | zero => rfl
  | succ n ih => rw [repeatText, ih, spaces, spaces, List.replicate_succ']

theorem widthLoop_some (c : Nat) (rows : List (List Bytes)) (h : ∀ row ∈ rows, c < row.length) (w0 : Nat) :
    ∃ w, widthLoop c rows w0 = some w ∧ w0 ≤ w ∧ (∀ row ∈ rows, ∀ cell, row[c]? = some cell → cell.length ≤ w) ∧
      (w = w0 ∨ ∃ row ∈ rows, ∃ cell, row[c]? = some cell ∧ cell.length = w) := by
  induction rows generalizing w0 with
  | nil => exact ⟨w0, rfl, by omega, by simp, .inl rfl⟩
  | cons row rows ih =>
    have hc := List.getElem?_eq_getElem (h row (by simp))
    rw [widthLoop, hc]
    obtain ⟨w, h1, h2, h3, h4⟩ := ih (fun r hr => h r (by simp [hr])) (if w0 < (row[c]'(h row (by simp))).length then
      (row[c]'(h row (by simp))).length else w0)
    refine ⟨w, h1, by split at h2 <;> omega, ?_, ?_⟩
    · intro r hr cell hcell
      rcases List.mem_cons.1 hr with rfl | hr
      · rw [hc] at hcell
        cases hcell
        split at h2 <;> omega
      · exact h3 r hr cell hcell
    · rcases h4 with h4 | ⟨r, hr, cell, h5, h6⟩
      · split at h4
        · exact .inr ⟨row, by simp, _, hc, h4.symm⟩
        · exact .inl h4
      · exact .inr ⟨r, by simp [hr], cell, h5, h6⟩

theorem widthLoop_none {c : Nat} {rows : List (List Bytes)} (h : ∃ row ∈ rows, row.length ≤ c) (w0 : Nat) : widthLoop c rows w0 = none := by
  induction rows generalizing w0 with
  | nil => obtain ⟨_, h, -⟩ := h; cases h
  | cons row rows ih =>
    rw [widthLoop]
    cases hc : row[c]? with
    | none => rfl
    | some cell =>
      obtain ⟨r, hr, hl⟩ := h
      rcases List.mem_cons.1 hr with rfl | hr
      · rw [List.getElem?_eq_none hl] at hc
        cases hc
      · exact ih ⟨r, hr, hl⟩ _

theorem columnWidths_some (rows : List (List Bytes)) (todo c n : Nat) (hn : c + todo = n) (h : ∀ row ∈ rows, row.length = n) :
    ∃ ws, columnWidths rows c todo = some ws ∧ ws.length = todo ∧ ∀ j w, ws[j]? = some w →
      (∀ row ∈ rows, ∀ cell, row[c + j]? = some cell → cell.length ≤ w) ∧
        (w = 0 ∨ ∃ row ∈ rows, ∃ cell, row[c + j]? = some cell ∧ cell.length = w) := by
  induction todo generalizing c with
  | zero => exact ⟨[], rfl, rfl, by simp⟩
  | succ todo ih =>
    obtain ⟨w, h1, -, h3, h4⟩ := widthLoop_some c rows (fun row hr => by rw [h row hr]; omega) 0
    obtain ⟨ws, k1, k2, k3⟩ := ih (c + 1) (by omega)
    refine ⟨w :: ws, by rw [columnWidths, h1]; simp only [k1], by simp [k2], ?_⟩
    intro j w' hj
    cases j with
    | zero =>
      simp only [List.getElem?_cons_zero, Option.some.injEq] at hj
      subst hj
      exact ⟨h3, h4⟩
    | succ j =>
      have := k3 j w' (by simpa using hj)
      rw [show c + 1 + j = c + (j + 1) by omega] at this
      exact this

theorem columnWidths_none {rows : List (List Bytes)} {todo c : Nat} (h : ∃ row ∈ rows, row.length < c + todo) (ht : 0 < todo) :
    columnWidths rows c todo = none := by
  induction todo generalizing c with
  | zero => omega
  | succ todo ih =>
    rw [columnWidths]
    obtain ⟨row, hr, hl⟩ := h
    cases hw : widthLoop c rows 0 with
    | none => rfl
    | some w =>
      by_cases hc : row.length ≤ c
      · rw [widthLoop_none ⟨row, hr, hc⟩] at hw
        cases hw
      · simp only [ih (c := c + 1) ⟨row, hr, by omega⟩ (by omega)]

theorem printCells_some (ws : List Nat) (row : List Bytes) (c : Nat) (h : ws.length = c + row.length)
    (hw : ∀ (j : Nat) (cell : Bytes) (w : Nat), row[j]? = some cell → ws[c + j]? = some w → cell.length ≤ w) :
    printCells ws c row = some ((List.zipWith padded row (ws.drop c)).flatten) := by
  induction row generalizing c with
  | nil => simp [printCells]
  | cons cell row ih =>
    simp only [List.length_cons] at h
    have hc := List.getElem?_eq_getElem (l := ws) (i := c) (by omega)
    rw [printCells, hc]
    simp only
    rw [ih (c + 1) (by omega) (fun j cell w h1 h2 => hw (j + 1) cell w (by simpa using h1) (by rw [← h2]; congr 1; omega))]
    simp only
    rw [List.drop_eq_getElem_cons (l := ws) (i := c) (by omega), List.zipWith_cons_cons, List.flatten_cons, repeat_spaces]
    have hle := hw 0 cell _ (by simp) hc
    rw [padded, show ws[c] + 2 - cell.length = 2 + (ws[c] - cell.length) by omega, spaces, spaces, ← List.replicate_append_replicate]
    simp only [List.append_assoc]
    rfl

theorem printCells_none {ws : List Nat} {row : List Bytes} {c : Nat} (h : ws.length < c + row.length) (hr : row ≠ []) :
    printCells ws c row = none := by
  induction row generalizing c with
  | nil => exact absurd rfl hr
  | cons cell row ih =>
    rw [printCells]
    cases hc : ws[c]? with
    | none => rfl
    | some w =>
      have hlt := (List.getElem?_eq_some_iff.1 hc).1
      simp only [List.length_cons] at h
      have : row ≠ [] := fun e => by
        rw [e, List.length_nil] at h
        omega
      simp only [ih (c := c + 1) (by omega) this]

theorem printRows_some (indent : Nat) (ws : List Nat) (rows : List (List Bytes)) (h : ∀ row ∈ rows, row.length = ws.length)
    (hw : ∀ row ∈ rows, ∀ (j : Nat) (cell : Bytes) (w : Nat), row[j]? = some cell → ws[j]? = some w → cell.length ≤ w) :
    printRows indent ws rows = some (tableText indent ws rows) := by
  induction rows with
  | nil => rfl
  | cons row rows ih =>
    rw [printRows, printCells_some ws row 0 (by rw [h row (by simp)]; omega)
      (fun j cell w h1 h2 => hw row (by simp) j cell w h1 (by rw [← h2]; congr 1; omega))]
    simp only [ih (fun r hr => h r (by simp [hr])) (fun r hr => hw r (by simp [hr])), List.map_cons, List.flatten_cons, tableText, tableLine,
      List.drop_zero, repeat_spaces]

end Appdash.MemStats
