import Verif.Model.Strconv

/-!
# Model of `memstats.go`: the memory statistics that the benchmark of the chunked collector prints

What is printed is a list of bytes.  A cell of a table is its text (`%v` of a string is the string, of a `uint64` its decimal digits).
-/

namespace Appdash.MemStats

/-- memstats.go:17-33 `fmtBytes`. -/
def fmtBytes (b : Nat) : Bytes :=
  let kb := 1024
  let mb := kb * 1024
  let gb := mb * 1024
  if b < kb then formatDec b ++ b!"B"
  else if b < mb then formatDec (b / kb) ++ b!"KB"
  else if b < gb then formatDec (b / mb) ++ b!"MB"
  else formatDec (b / gb) ++ b!"GB"

/-- memstats.go:36-42 `repeat`. -/
def repeatText (s : Bytes) : Nat → Bytes
  | 0 => []
  | n + 1 => repeatText s n ++ s

/-- memstats.go:51-59: the widths of the columns, one column at a time; `none` is the panic of `rows[row][column]`. -/
def widthLoop (column : Nat) : List (List Bytes) → Nat → Option Nat
  | [], w => some w
  | row :: rows, w =>
    match row[column]? with
    | none => none
    | some cell => widthLoop column rows (if w < cell.length then cell.length else w)

/-- memstats.go:51-59: the loop over the columns of the first row. -/
def columnWidths (rows : List (List Bytes)) : (column todo : Nat) → Option (List Nat)
  | _, 0 => some []
  | column, todo + 1 =>
    match widthLoop column rows 0 with
    | none => none
    | some w =>
      match columnWidths rows (column + 1) todo with
      | none => none
      | some ws => some (w :: ws)

/-- memstats.go:63-66: the cells of a row; `none` is the panic of `columnWidths[c]`. -/
def printCells (widths : List Nat) : Nat → List Bytes → Option Bytes
  | _, [] => some []
  | c, cell :: row =>
    match widths[c]? with
    | none => none
    | some w =>
      match printCells widths (c + 1) row with
      | none => none
      | some out => some (cell ++ b!"  " ++ repeatText b!" " (w - cell.length) ++ out)

/-- memstats.go:61-68: the rows.  What has been printed before a panic is not kept. -/
def printRows (indent : Nat) (widths : List Nat) : List (List Bytes) → Option Bytes
  | [] => some []
  | row :: rows =>
    match printCells widths 0 row with
    | none => none
    | some cells =>
      match printRows indent widths rows with
      | none => none
      | some out => some (repeatText b!" " indent ++ b!"- " ++ cells ++ b!"\n" ++ out)

/-- memstats.go:50-69 `logColumns`; `none` is a panic, also that of `rows[0]`. -/
def logColumns (indent : Nat) (rows : List (List Bytes)) : Option Bytes :=
  match rows with
  | [] => none
  | first :: _ =>
    match columnWidths rows 0 first.length with
    | none => none
    | some widths => printRows indent widths rows

/-- The fields of `runtime.MemStats` that memstats.go:73-117 prints. -/
structure Numbers where
  alloc : Nat
  totalAlloc : Nat
  sys : Nat
  lookups : Nat
  mallocs : Nat
  frees : Nat
  heapAlloc : Nat
  heapSys : Nat
  heapIdle : Nat
  heapInuse : Nat
  heapReleased : Nat
  heapObjects : Nat
  stackInuse : Nat
  stackSys : Nat
  mspanInuse : Nat
  mspanSys : Nat
  mcacheInuse : Nat
  mcacheSys : Nat
  buckHashSys : Nat
  gcSys : Nat
  otherSys : Nat

/-- memstats.go:82-87. -/
def generalRows (s : Numbers) : List (List Bytes) :=
  [[b!"Alloc", fmtBytes s.alloc, b!"(allocated and still in use)"],
   [b!"TotalAlloc", fmtBytes s.totalAlloc, b!"(allocated (even if freed))"],
   [b!"Sys", fmtBytes s.sys, b!"(obtained from system (sum of XxxSys below))"],
   [b!"Lookups", formatDec s.lookups, b!"(number of pointer lookups)"],
   [b!"Mallocs", formatDec s.mallocs, b!"(number of mallocs)"],
   [b!"Frees", formatDec s.frees, b!"(number of frees)"]]

/-- memstats.go:95-100. -/
def heapRows (s : Numbers) : List (List Bytes) :=
  [[b!"HeapAlloc", fmtBytes s.heapAlloc, b!"(allocated and still in use)"],
   [b!"HeapSys", fmtBytes s.heapSys, b!"(obtained from system)"],
   [b!"HeapIdle", fmtBytes s.heapIdle, b!"(in idle spans)"],
   [b!"HeapInuse", fmtBytes s.heapInuse, b!"(in non-idle span)"],
   [b!"HeapReleased", fmtBytes s.heapReleased, b!"(released to the OS)"],
   [b!"HeapObjects", formatDec s.heapObjects, b!"(total number of allocated objects)"]]

/-- memstats.go:108-116. -/
def lowRows (s : Numbers) : List (List Bytes) :=
  [[b!"StackInuse", fmtBytes s.stackInuse, b!"(used by stack allocator right now)"],
   [b!"StackSys", fmtBytes s.stackSys, b!"(obtained from system)"],
   [b!"MSpanInuse", fmtBytes s.mspanInuse, b!"(mspan structures / in use now)"],
   [b!"MSpanSys", fmtBytes s.mspanSys, b!"(obtained from system)"],
   [b!"MCacheInuse", fmtBytes s.mcacheInuse, b!"(in use now))"],
   [b!"MCacheSys", fmtBytes s.mcacheSys, b!"(mcache structures / obtained from system)"],
   [b!"BuckHashSys", fmtBytes s.buckHashSys, b!"(profiling bucket hash table / obtained from system)"],
   [b!"GCSys", fmtBytes s.gcSys, b!"(GC metadata / obtained form system)"],
   [b!"OtherSys", fmtBytes s.otherSys, b!"(other system allocations)"]]

/-- memstats.go:45-47 `logf`, for a text that has been formatted. -/
def logf (indent : Nat) (text : Bytes) : Bytes := repeatText b!" " indent ++ text

/-- memstats.go:73-141 `Log`: what is printed, and the indentation for the next call (memstats.go:77, 119: one `+= 2` more than `-= 2`). -/
def log (indent collections : Nat) (segment : Bytes) (s : Numbers) : Option (Bytes × Nat) :=
  let head := logf indent (b!"\n\n[" ++ segment ++ b!"] " ++ formatDec collections ++ b!"-collections:\n")
  let indent := indent + 2
  match logColumns (indent + 2) (generalRows s), logColumns (indent + 2) (heapRows s), logColumns (indent + 2) (lowRows s) with
  | some t1, some t2, some t3 =>
    some (head ++ logf indent b!"General statistics\n" ++ t1 ++ b!"\n" ++ logf indent b!"Main allocation heap statistics\n" ++ t2 ++ b!"\n" ++
      logf indent b!"Low-level fixed-size structure allocator statistics\n" ++ t3 ++ b!"\n", indent)
  | _, _, _ => none

end Appdash.MemStats
