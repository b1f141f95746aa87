import Verif.Model.MemStats

/-! # Specification for C163: a table of texts -/

namespace Appdash.Spec

/-- `n` spaces. -/
def spaces (n : Nat) : Bytes := List.replicate n 32

/-- A cell, filled up to the width of its column and two more spaces. -/
def padded (cell : Bytes) (w : Nat) : Bytes := cell ++ spaces (w + 2 - cell.length)

/-- The line of a row in a table whose columns have these widths. -/
def tableLine (indent : Nat) (ws : List Nat) (row : List Bytes) : Bytes :=
  spaces indent ++ b!"- " ++ (List.zipWith padded row ws).flatten ++ b!"\n"

/-- Each width is that of the widest cell of its column. -/
def Widths (rows : List (List Bytes)) (ws : List Nat) : Prop :=
  (∀ row ∈ rows, row.length = ws.length) ∧
  ∀ (c w : Nat), ws[c]? = some w →
    (∀ row ∈ rows, ∀ cell : Bytes, row[c]? = some cell → cell.length ≤ w) ∧ (w = 0 ∨ ∃ row ∈ rows, ∃ cell : Bytes, row[c]? = some cell ∧ cell.length = w)

/-- A number of a report: a size in bytes, or a count. -/
inductive Reported where
  | size (n : Nat)
  | count (n : Nat)

/-- The general numbers of a report with their names. -/
def reportedGeneral (s : MemStats.Numbers) : List (Bytes × Reported) :=
  [(b!"Alloc", .size s.alloc), (b!"TotalAlloc", .size s.totalAlloc), (b!"Sys", .size s.sys), (b!"Lookups", .count s.lookups),
   (b!"Mallocs", .count s.mallocs), (b!"Frees", .count s.frees)]

/-- The numbers of the heap. -/
def reportedHeap (s : MemStats.Numbers) : List (Bytes × Reported) :=
  [(b!"HeapAlloc", .size s.heapAlloc), (b!"HeapSys", .size s.heapSys), (b!"HeapIdle", .size s.heapIdle), (b!"HeapInuse", .size s.heapInuse),
   (b!"HeapReleased", .size s.heapReleased), (b!"HeapObjects", .count s.heapObjects)]

/-- The numbers of the other allocators. -/
def reportedLow (s : MemStats.Numbers) : List (Bytes × Reported) :=
  [(b!"StackInuse", .size s.stackInuse), (b!"StackSys", .size s.stackSys), (b!"MSpanInuse", .size s.mspanInuse),
   (b!"MSpanSys", .size s.mspanSys), (b!"MCacheInuse", .size s.mcacheInuse), (b!"MCacheSys", .size s.mcacheSys),
   (b!"BuckHashSys", .size s.buckHashSys), (b!"GCSys", .size s.gcSys), (b!"OtherSys", .size s.otherSys)]

/-- A row of a report shows a number under its name: as a count in decimal digits, as a size in the way `printed` says. -/
def RowShows (printed : Nat → Bytes) (row : List Bytes) (x : Bytes × Reported) : Prop :=
  ∃ remark, row = [x.1, (match x.2 with | .size n => printed n | .count n => formatDec n), remark]

/-- The rows of a table show these numbers, in this order. -/
def TableShows (printed : Nat → Bytes) : List (List Bytes) → List (Bytes × Reported) → Prop
  | [], [] => True
  | row :: rows, x :: xs => RowShows printed row x ∧ TableShows printed rows xs
  | _, _ => False

/-- The text of a report: a heading, and three tables under their titles. -/
def reportText (indent collections : Nat) (segment : Bytes) (t1 t2 t3 : Bytes) : Bytes :=
  spaces indent ++ b!"\n\n[" ++ segment ++ b!"] " ++ formatDec collections ++ b!"-collections:\n" ++
  spaces (indent + 2) ++ b!"General statistics\n" ++ t1 ++ b!"\n" ++
  spaces (indent + 2) ++ b!"Main allocation heap statistics\n" ++ t2 ++ b!"\n" ++
  spaces (indent + 2) ++ b!"Low-level fixed-size structure allocator statistics\n" ++ t3 ++ b!"\n"

/-- The text of a table. -/
def tableText (indent : Nat) (ws : List Nat) (rows : List (List Bytes)) : Bytes := (rows.map (tableLine indent ws)).flatten

end Appdash.Spec
