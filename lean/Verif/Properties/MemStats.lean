import Verif.Proofs.MemStats

/-!
# C163: the memory statistics of the benchmark are readable
-/

namespace Appdash.MemStats
open Spec

/-- **C163** (sizes).  A size is printed in the largest unit that does not exceed it, rounded down. -/
theorem size_printed (b : Nat) :
    ∃ n unit name, (name, unit) ∈ [(b!"B", 1), (b!"KB", 1024), (b!"MB", 1024 * 1024), (b!"GB", 1024 * 1024 * 1024)] ∧
      fmtBytes b = formatDec n ++ name ∧ n * unit ≤ b ∧ b < (n + 1) * unit ∧ (n < 1024 ∨ unit = 1024 * 1024 * 1024) ∧ (1 ≤ n ∨ unit = 1) := by
  unfold fmtBytes
  simp only
  split
  · exact ⟨b, 1, b!"B", by simp, rfl, by omega, by omega, .inl (by omega), .inr rfl⟩
  · split
    · exact ⟨b / 1024, 1024, b!"KB", by simp, rfl, Nat.div_mul_le_self _ _, Nat.mul_comm _ _ ▸ Nat.lt_mul_div_succ b (by decide),
        .inl (Nat.div_lt_of_lt_mul (by assumption)), .inl (by omega)⟩
    · split
      · exact ⟨b / (1024 * 1024), 1024 * 1024, b!"MB", by simp, rfl, Nat.div_mul_le_self _ _, Nat.mul_comm _ _ ▸ Nat.lt_mul_div_succ b (by decide),
          .inl (Nat.div_lt_of_lt_mul (by assumption)), .inl (by omega)⟩
      · exact ⟨b / (1024 * 1024 * 1024), 1024 * 1024 * 1024, b!"GB", by simp, rfl, by omega, by omega, .inr rfl, .inl (by omega)⟩

/-- **C163** (tables).  A table whose rows are equally long is printed with one line per row, in which every cell is filled up to the width of
the widest cell of its column and two more spaces. -/
theorem table_printed (indent : Nat) (rows : List (List Bytes)) (n : Nat) (hne : rows ≠ []) (h : ∀ row ∈ rows, row.length = n) :
    ∃ ws, Widths rows ws ∧ ws.length = n ∧ logColumns indent rows = some (tableText indent ws rows) := by
  cases rows with
  | nil => exact absurd rfl hne
  | cons first rest =>
    obtain ⟨ws, h1, h2, h3⟩ := columnWidths_some (first :: rest) n 0 n (by omega) h
    simp only [Nat.zero_add] at h3
    refine ⟨ws, ⟨fun row hr => by rw [h row hr, h2], h3⟩, h2, ?_⟩
    rw [logColumns, h first (by simp), h1]
    exact printRows_some indent ws _ (fun row hr => by rw [h row hr, h2]) (fun row hr j cell w hj hw => (h3 j w hw).1 row hr cell hj)

/-- **C163** (columns).  In a table, the cells of a column begin at the same place of their lines. -/
theorem columns_aligned (indent : Nat) {rows : List (List Bytes)} {ws : List Nat} (h : Widths rows ws) (c : Nat) :
    ∃ start, ∀ row ∈ rows, ∀ cell, row[c]? = some cell → cell <+: (tableLine indent ws row).drop start := by
  refine ⟨indent + 2 + ((ws.take c).map (· + 2)).sum, fun row hr cell hcell => ?_⟩
  have hlen : row.length = ws.length := h.1 row hr
  have hw : ∀ (j : Nat) (cell : Bytes) (w : Nat), row[j]? = some cell → ws[j]? = some w → cell.length ≤ w := fun j cell w h1 h2 => (h.2 j w h2).1 row hr cell h1
  have key : ∀ (row : List Bytes) (ws : List Nat) (c : Nat), row.length = ws.length →
      (∀ (j : Nat) (cell : Bytes) (w : Nat), row[j]? = some cell → ws[j]? = some w → cell.length ≤ w) → row[c]? = some cell →
      ∃ a b, (List.zipWith padded row ws).flatten = a ++ cell ++ b ∧ a.length = ((ws.take c).map (· + 2)).sum := by
    intro row
    induction row with
    | nil => intro ws c _ _ h; simp at h
    | cons x row ih =>
      intro ws c hl hw hc
      cases ws with
      | nil => simp at hl
      | cons w ws =>
        cases c with
        | zero =>
          simp only [List.getElem?_cons_zero, Option.some.injEq] at hc
          subst hc
          exact ⟨[], _, by rw [List.zipWith_cons_cons, List.flatten_cons, padded, List.nil_append, List.append_assoc], rfl⟩
        | succ c =>
          obtain ⟨a, b, e1, e2⟩ := ih ws c (by simpa using hl) (fun j cell w h1 h2 => hw (j + 1) cell w (by simpa using h1) (by simpa using h2))
            (by simpa using hc)
          refine ⟨padded x w ++ a, b, by rw [List.zipWith_cons_cons, List.flatten_cons, e1]; simp, ?_⟩
          have := hw 0 x w (by simp) (by simp)
          simp only [List.length_append, padded, spaces, List.length_replicate, e2, List.take_succ_cons, List.map_cons, List.sum_cons]
          omega
  obtain ⟨a, b, e1, e2⟩ := key row ws c hlen hw hcell
  rw [tableLine, e1]
  have e3 : spaces indent ++ b!"- " ++ (a ++ cell ++ b) ++ b!"\n" = (spaces indent ++ b!"- " ++ a) ++ (cell ++ (b ++ b!"\n")) := by
    simp only [List.append_assoc]
  have e4 : (spaces indent ++ b!"- " ++ a).length = indent + 2 + ((ws.take c).map (· + 2)).sum := by
    simp only [List.length_append, spaces, List.length_replicate, e2]
    rfl
  rw [e3, ← e4, List.drop_left']
  · exact List.prefix_append _ _
  · rfl

/-- **C163** (panics).  `logColumns` panics exactly if there is no row or the rows are not equally long. -/
theorem table_panics_iff (indent : Nat) (rows : List (List Bytes)) :
    logColumns indent rows = none ↔ ¬ ∃ n, rows ≠ [] ∧ ∀ row ∈ rows, row.length = n := by
  constructor
  · rintro h ⟨n, h1, h2⟩
    obtain ⟨ws, -, -, h3⟩ := table_printed indent rows n h1 h2
    rw [h] at h3
    cases h3
  · intro h
    cases rows with
    | nil => rfl
    | cons first rest =>
      have : ∃ row ∈ first :: rest, row.length ≠ first.length := by
        apply Classical.byContradiction
        intro hn
        exact h ⟨first.length, by simp, fun row hr => Classical.byContradiction fun e => hn ⟨row, hr, e⟩⟩
      obtain ⟨row, hr, hl⟩ := this
      rw [logColumns]
      cases hw : columnWidths (first :: rest) 0 first.length with
      | none => rfl
      | some ws =>
        simp only
        rcases Nat.lt_or_gt_of_ne hl with hlt | hgt
        · rw [columnWidths_none ⟨row, hr, by omega⟩ (by omega)] at hw
          cases hw
        · have hlen : ∀ (todo c : Nat) (ws : List Nat), columnWidths (first :: rest) c todo = some ws → ws.length = todo := by
            intro todo
            induction todo with
            | zero => intro c ws h; simp only [columnWidths, Option.some.injEq] at h; rw [← h]; rfl
            | succ todo ih =>
              intro c ws h
              rw [columnWidths] at h
              split at h
              · cases h
              · split at h
                · cases h
                · rename_i ws' hws
                  simp only [Option.some.injEq] at h
                  rw [← h, List.length_cons, ih _ _ hws]
          have hwl := hlen _ _ _ hw
          generalize first :: rest = rows at hr
          clear hw hlen h
          induction rows with
          | nil => cases hr
          | cons r rs ih =>
            rw [printRows]
            rcases List.mem_cons.1 hr with rfl | hr
            · rw [printCells_none (by omega) (by rintro rfl; simp only [List.length_nil] at hgt; omega)]
            · cases printCells ws 0 r with
              | none => rfl
              | some out => simp only [ih hr]

/-- The full statement: one report is laid out like another. -/
def ReportsAlike : Prop :=
  ∀ (collections : Nat) (segment : Bytes) (s : Numbers) (indent : Nat) (r : Bytes × Nat), log indent collections segment s = some r → r.2 = indent

/-- **C163** (the layout; false in general).  Every report is indented by two spaces more than the one before. -/
theorem reports_creep (collections : Nat) (segment : Bytes) (s : Numbers) (indent : Nat) :
    ∃ out, log indent collections segment s = some (out, indent + 2) := by
  obtain ⟨ws1, -, -, h1⟩ := table_printed (indent + 2 + 2) (generalRows s) 3 (by simp [generalRows]) (by simp [generalRows])
  obtain ⟨ws2, -, -, h2⟩ := table_printed (indent + 2 + 2) (heapRows s) 3 (by simp [heapRows]) (by simp [heapRows])
  obtain ⟨ws3, -, -, h3⟩ := table_printed (indent + 2 + 2) (lowRows s) 3 (by simp [lowRows]) (by simp [lowRows])
  unfold log
  simp only [h1, h2, h3]
  exact ⟨_, rfl⟩

theorem reports_not_alike : ¬ ReportsAlike := by
  intro h
  obtain ⟨out, ho⟩ := reports_creep 0 [] ⟨0, 0, 0, 0, 0, 0, 0, 0, 0, 0, 0, 0, 0, 0, 0, 0, 0, 0, 0, 0, 0⟩ 0
  have := h _ _ _ _ _ ho
  cases this

/-- **C163** (the report).  Every report is printed.  It has three tables, laid out as described, whose rows show every number under its
name. -/
theorem report_partial (collections : Nat) (segment : Bytes) (s : Numbers) (indent : Nat) :
    ∃ r1 r2 r3 ws1 ws2 ws3, Widths r1 ws1 ∧ Widths r2 ws2 ∧ Widths r3 ws3 ∧
      TableShows fmtBytes r1 (reportedGeneral s) ∧ TableShows fmtBytes r2 (reportedHeap s) ∧ TableShows fmtBytes r3 (reportedLow s) ∧
      log indent collections segment s = some (reportText indent collections segment (tableText (indent + 4) ws1 r1)
        (tableText (indent + 4) ws2 r2) (tableText (indent + 4) ws3 r3), indent + 2) := by
  obtain ⟨ws1, g1, -, h1⟩ := table_printed (indent + 2 + 2) (generalRows s) 3 (by simp [generalRows]) (by simp [generalRows])
  obtain ⟨ws2, g2, -, h2⟩ := table_printed (indent + 2 + 2) (heapRows s) 3 (by simp [heapRows]) (by simp [heapRows])
  obtain ⟨ws3, g3, -, h3⟩ := table_printed (indent + 2 + 2) (lowRows s) 3 (by simp [lowRows]) (by simp [lowRows])
  refine ⟨_, _, _, ws1, ws2, ws3, g1, g2, g3, ?_, ?_, ?_, ?_⟩
  · exact ⟨⟨_, rfl⟩, ⟨_, rfl⟩, ⟨_, rfl⟩, ⟨_, rfl⟩, ⟨_, rfl⟩, ⟨_, rfl⟩, trivial⟩
  · exact ⟨⟨_, rfl⟩, ⟨_, rfl⟩, ⟨_, rfl⟩, ⟨_, rfl⟩, ⟨_, rfl⟩, ⟨_, rfl⟩, trivial⟩
  · exact ⟨⟨_, rfl⟩, ⟨_, rfl⟩, ⟨_, rfl⟩, ⟨_, rfl⟩, ⟨_, rfl⟩, ⟨_, rfl⟩, ⟨_, rfl⟩, ⟨_, rfl⟩, ⟨_, rfl⟩, trivial⟩
  · unfold log
    simp only [h1, h2, h3, logf, repeat_spaces, reportText, List.append_assoc]

/-- A table of two rows. -/
example : logColumns 2 [[b!"Sys", b!"1KB"], [b!"Alloc", b!"7B"]] = some b!"  - Sys    1KB  \n  - Alloc  7B   \n" := by decide

end Appdash.MemStats
