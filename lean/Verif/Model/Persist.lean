import Verif.Model.Store

/-!
# Model of persistence: `MemoryStore.Write`, `MemoryStore.ReadFrom` and `PersistEvery` (store.go:320-382)

encoding/gob is not part of /repo.  It is modelled by the values it transmits: pointers are followed, so every pointer
is sent as a complete tree and comes back as freshly allocated nodes; a slice of length zero in a struct is not sent and
comes back nil; an empty map is sent.  The bytes are not modelled.
-/

namespace Appdash

/-- What gob makes of an annotation: an empty value comes back nil. -/
def gobAnnotation (a : Annotation) : Annotation := { a with value := if a.value = some [] then none else a.value }

mutual
/-- What gob makes of a `*Trace`. -/
def gobTree : Tree → Tree
  | .node s ts => .node { s with annotations := s.annotations.map gobAnnotation } (gobTrees ts)
/-- What gob makes of a `[]*Trace`. -/
def gobTrees : List Tree → List Tree
  | [] => []
  | t :: ts => gobTree t :: gobTrees ts
end

/-- store.go:320-323 `type memoryStoreData struct`, as transmitted. -/
structure GobData where
  trace : AMap ID Tree
  span : AMap ID (AMap ID Tree)
deriving DecidableEq, Repr

namespace MemStore

/-- The encoder on a `map[ID]*Trace`; `none` if it has not returned after recursing to depth `fuel`. -/
def encodeMap (h : Addr → Node) (fuel : Nat) (m : AMap ID Addr) : Option (AMap ID Tree) :=
  m.mapM fun p => (unfoldNode h fuel p.2).map fun tr => (p.1, gobTree tr)

/-- The encoder on a `map[ID]map[ID]*Trace`. -/
def encodeMaps (h : Addr → Node) (fuel : Nat) (m : AMap ID (AMap ID Addr)) : Option (AMap ID (AMap ID Tree)) :=
  m.mapM fun p => (encodeMap h fuel p.2).map fun l => (p.1, l)

/-- store.go:327-333 `MemoryStore.Write`: the data written, or `none` if the encoder has not returned after recursing to
depth `fuel`.  Errors of the `io.Writer` are modelled in `PersistStep`. -/
def write (ms : MemStore) (fuel : Nat) : Option GobData :=
  match encodeMap ms.heap fuel ms.trace with
  | none => none
  | some tr =>
    match encodeMaps ms.heap fuel ms.span with
    | none => none
    | some sp => some { trace := tr, span := sp }

/-- `Write` returns, having written `d`. -/
def Writes (ms : MemStore) (d : GobData) : Prop := ∃ fuel, ms.write fuel = some d

end MemStore

/-! ## Decoding -/

/-- The heap and the first free address. -/
abbrev Heap := (Addr → Node) × Nat

mutual
/-- The decoder allocates a tree. -/
def allocTree : Tree → Heap → Addr × Heap
  | .node s ts, st =>
    let r := allocTrees ts st
    (r.2.2, (heapUpd r.2.1 r.2.2 { id := s.id, anns := s.annotations, sub := r.1 }, r.2.2 + 1))
/-- The decoder allocates a list of trees. -/
def allocTrees : List Tree → Heap → List Addr × Heap
  | [], st => ([], st)
  | t :: ts, st =>
    let r := allocTree t st
    let r' := allocTrees ts r.2
    (r.1 :: r'.1, r'.2)
end

/-- The decoder on a `map[ID]*Trace`.  The keys of an encoded map are distinct. -/
def allocMap : AMap ID Tree → Heap → AMap ID Addr × Heap
  | [], st => ([], st)
  | (k, t) :: m, st =>
    let r := allocTree t st
    let r' := allocMap m r.2
    ((k, r.1) :: r'.1, r'.2)

/-- The decoder on a `map[ID]map[ID]*Trace`. -/
def allocMaps : AMap ID (AMap ID Tree) → Heap → AMap ID (AMap ID Addr) × Heap
  | [], st => ([], st)
  | (k, m) :: l, st =>
    let r := allocMap m st
    let r' := allocMaps l r.2
    ((k, r.1) :: r'.1, r'.2)

namespace MemStore

/-- store.go:337-348 `MemoryStore.ReadFrom`: the new store and the reported number of traces.  `none` is input that
does not decode; the store is then left alone. -/
def readFrom (ms : MemStore) : Option GobData → MemStore × Option Nat
  | none => (ms, none)
  | some d =>
    let r := allocMap d.trace (ms.heap, ms.next)
    let r' := allocMaps d.span r.2
    ({ heap := r'.2.1, next := r'.2.2, trace := r.1, span := r'.1 }, some r.1.length)

/-- The stores a program can hold: built by `NewMemoryStore`, `Collect`, `Delete` and `ReadFrom` of what another such
store wrote. -/
inductive Reachable : MemStore → Prop
  | new : Reachable new
  | step {ms ms' : MemStore} (op : StoreOp) : Reachable ms → ms.step op = some ms' → Reachable ms'
  | readFrom {ms dst : MemStore} {d : GobData} : Reachable ms → ms.Writes d → Reachable dst →
      Reachable (dst.readFrom (some d)).1

end MemStore

/-! ## `PersistEvery` -/

/-- A file name. -/
abbrev FileName := List UInt8

/-- Where `PersistEvery` stands (store.go:359-382). -/
inductive PersistPC where
  /-- Sleeping, or about to call `TempFile` (line 361-363). -/
  | idle
  /-- `TempFile` returned this file (line 363). -/
  | created (tmp : FileName)
  /-- `Write` is running (line 367): what it has still to write. -/
  | writing (tmp : FileName) (rest : List UInt8)
  /-- `Write` returned nil (line 371). -/
  | written (tmp : FileName)
  /-- `Close` returned nil (line 374). -/
  | closed (tmp : FileName)
  /-- `PersistEvery` returned an error. -/
  | returned
deriving DecidableEq, Repr

/-- The files, and the process if it is running: its store and its `PersistEvery`. -/
structure PersistState where
  files : AMap FileName (List UInt8)
  proc : Option (MemStore × PersistPC)

/-- What happens in one step.  The labels carry what an observer of the calls sees. -/
inductive PersistEvent where
  /-- The process starts. -/
  | start
  /-- A call on the store. -/
  | call (op : StoreOp)
  /-- `Write` is called on the store. -/
  | write (ms : MemStore)
  /-- `Rename` succeeds. -/
  | rename
  /-- The process dies. -/
  | crash
  /-- Anything else. -/
  | other

/-- One step of the process with its `PersistEvery` (store.go:359-382 and, for the start, cmd/appdash/serve_cmd.go:60-89).
`file` is the name passed to `PersistEvery`, `enc` and `dec` are what gob does with the bytes.  Simplifications: nobody
else touches `file` or the temporary file; `TempFile` chooses a name that does not exist and is not `file`; a file system
call that returned nil has taken effect, and a crash is one of the process, not of the machine.  `rename` replaces the
target in one step, as POSIX requires.  Between calls other goroutines call the store; while `Write` runs it holds the
store's lock. -/
inductive PersistStep (file : FileName) (enc : GobData → List UInt8) (dec : List UInt8 → Option GobData) :
    PersistState → PersistEvent → PersistState → Prop
  /-- serve_cmd.go:61, 67-70: there is no file. -/
  | startEmpty {fs} : fs.get file = none →
      PersistStep file enc dec ⟨fs, none⟩ .start ⟨fs, some (MemStore.new, .idle)⟩
  /-- serve_cmd.go:72-73: the file is read. -/
  | startRead {fs b d} : fs.get file = some b → dec b = some d →
      PersistStep file enc dec ⟨fs, none⟩ .start ⟨fs, some ((MemStore.new.readFrom (some d)).1, .idle)⟩
  /-- A `Collect` or `Delete` by some goroutine. -/
  | call {fs ms ms' pc op} : ms.step op = some ms' → (∀ tmp rest, pc ≠ .writing tmp rest) →
      PersistStep file enc dec ⟨fs, some (ms, pc)⟩ (.call op) ⟨fs, some (ms', pc)⟩
  /-- store.go:363-366: `TempFile` fails. -/
  | tempFail {fs ms} : PersistStep file enc dec ⟨fs, some (ms, .idle)⟩ .other ⟨fs, some (ms, .returned)⟩
  /-- store.go:363: `TempFile` creates an empty file. -/
  | temp {fs ms tmp} : fs.get tmp = none → tmp ≠ file →
      PersistStep file enc dec ⟨fs, some (ms, .idle)⟩ .other ⟨fs.set tmp [], some (ms, .created tmp)⟩
  /-- store.go:367, 327-331: `Write` takes the lock and encodes the store. -/
  | write {fs ms tmp d} : ms.Writes d →
      PersistStep file enc dec ⟨fs, some (ms, .created tmp)⟩ (.write ms) ⟨fs, some (ms, .writing tmp (enc d))⟩
  /-- The encoder writes the next bytes to the file. -/
  | chunk {fs ms tmp now rest old} : fs.get tmp = some old →
      PersistStep file enc dec ⟨fs, some (ms, .writing tmp (now ++ rest))⟩ .other
        ⟨fs.set tmp (old ++ now), some (ms, .writing tmp rest)⟩
  /-- store.go:367-370: writing fails. -/
  | writeFail {fs ms tmp rest} :
      PersistStep file enc dec ⟨fs, some (ms, .writing tmp rest)⟩ .other ⟨fs, some (ms, .returned)⟩
  /-- store.go:367: everything is written. -/
  | writeDone {fs ms tmp} :
      PersistStep file enc dec ⟨fs, some (ms, .writing tmp [])⟩ .other ⟨fs, some (ms, .written tmp)⟩
  /-- store.go:371: `Close` succeeds. -/
  | close {fs ms tmp} :
      PersistStep file enc dec ⟨fs, some (ms, .written tmp)⟩ .other ⟨fs, some (ms, .closed tmp)⟩
  /-- store.go:371-373: `Close` fails. -/
  | closeFail {fs ms tmp} :
      PersistStep file enc dec ⟨fs, some (ms, .written tmp)⟩ .other ⟨fs, some (ms, .returned)⟩
  /-- store.go:374: `Rename` succeeds. -/
  | rename {fs ms tmp b} : fs.get tmp = some b →
      PersistStep file enc dec ⟨fs, some (ms, .closed tmp)⟩ .rename ⟨(fs.del tmp).set file b, some (ms, .idle)⟩
  /-- store.go:374-376: `Rename` fails. -/
  | renameFail {fs ms tmp} :
      PersistStep file enc dec ⟨fs, some (ms, .closed tmp)⟩ .other ⟨fs, some (ms, .returned)⟩
  /-- The process dies. -/
  | crash {fs p} : PersistStep file enc dec ⟨fs, some p⟩ .crash ⟨fs, none⟩

/-- Any number of steps, with their events, oldest first. -/
inductive PersistRuns (file : FileName) (enc : GobData → List UInt8) (dec : List UInt8 → Option GobData) :
    PersistState → List PersistEvent → PersistState → Prop
  | refl (σ) : PersistRuns file enc dec σ [] σ
  | step {σ evs σ' ev σ''} : PersistRuns file enc dec σ evs σ' → PersistStep file enc dec σ' ev σ'' →
      PersistRuns file enc dec σ (evs ++ [ev]) σ''

end Appdash
