import Verif.Prelude

/-!
# Model of the files embedded in the program

traceapp/tmpl/data_vfsdata.go: `tmpl.Data` is a file system whose files are kept compressed; an opened file reads through a `gzip.Reader`, and seeks
by decompressing again.  The compressed bytes are represented by what they decompress to.  Positions are unlimited (in Go: 64 bits), and so is the memory
for the buffer of line 158.
-/

namespace Appdash

/-- Errors of reading. -/
inductive FileErr where
  | eof
  | unexpectedEOF
deriving DecidableEq, Repr

/-- traceapp/tmpl/data_vfsdata.go:139-144 `_vfsgen_compressedFile`; `at` is where the `gzip.Reader` really is. -/
structure OpenFile where
  content : Bytes
  uncompressedSize : Int
  at' : Nat
  grPos : Int
  seekPos : Int

/-- traceapp/tmpl/data_vfsdata.go:86-105 `Open` of a file. -/
def OpenFile.new (content : Bytes) (size : Int) : OpenFile := ⟨content, size, 0, 0, 0⟩

/-- compress/gzip `Reader.Read` with a buffer of `k` bytes, at position `at'` of the decompressed contents: some of the next bytes, at least one unless
the buffer is empty or nothing is left; the end may be reported with the last bytes or after them. -/
def GzReads (content : Bytes) (at' k : Nat) (data : Bytes) (err : Option FileErr) : Prop :=
  data <+: content.drop at' ∧ data.length ≤ k ∧ (err = none ∨ err = some .eof) ∧ (err = some .eof → content.length ≤ at' + data.length) ∧
    (0 < k → data = [] → err = some .eof)

/-- io `ReadFull` of `m > 0` bytes from the `gzip.Reader`: the new position, and the error. -/
def readFull (content : Bytes) (at' m : Nat) : Nat × Option FileErr :=
  if at' + m ≤ content.length then (at' + m, none)
  else (content.length, some (if content.length ≤ at' then .eof else .unexpectedEOF))

/-- traceapp/tmpl/data_vfsdata.go:147-154: the file after rewinding, if the `gzip.Reader` is too far. -/
def OpenFile.rewind (f : OpenFile) : OpenFile := if f.grPos > f.seekPos then { f with at' := 0, grPos := 0 } else f

/-- traceapp/tmpl/data_vfsdata.go:155-162: fast-forward; on an error only the `gzip.Reader` has moved. -/
def OpenFile.forward (f : OpenFile) : OpenFile × Option FileErr :=
  if f.grPos < f.seekPos then
    match readFull f.content f.at' (f.seekPos - f.grPos).toNat with
    | (a, none) => ({ f with at' := a, grPos := f.seekPos }, none)
    | (a, some e) => ({ f with at' := a }, some e)
  else (f, none)

/-- traceapp/tmpl/data_vfsdata.go:146-167 `Read` with a buffer of `k` bytes: the bytes read, the error and the file afterwards. -/
def OpenFile.Reads (f : OpenFile) (k : Nat) (data : Bytes) (err : Option FileErr) (f' : OpenFile) : Prop :=
  match f.rewind.forward with
  | (g, some e) => data = [] ∧ err = some e ∧ f' = g
  | (g, none) => GzReads g.content g.at' k data err ∧
      f' = { g with at' := g.at' + data.length, grPos := g.grPos + data.length, seekPos := g.grPos + data.length }

/-- The values of `whence`; others make `Seek` panic. -/
inductive Whence where
  | start
  | current
  | fromEnd
deriving DecidableEq, Repr

/-- traceapp/tmpl/data_vfsdata.go:168-180 `Seek`; it returns the new position and no error. -/
def OpenFile.seek (f : OpenFile) (offset : Int) : Whence → OpenFile
  | .start => { f with seekPos := 0 + offset }
  | .current => { f with seekPos := f.seekPos + offset }
  | .fromEnd => { f with seekPos := f.uncompressedSize + offset }

/-- A call and its result. -/
inductive FileCall where
  | seek (offset : Int) (whence : Whence) (result : Int)
  | read (k : Nat) (data : Bytes) (err : Option FileErr)

/-- A sequence of calls on an opened file. -/
inductive OpenFile.Run : OpenFile → List FileCall → Prop where
  | nil (f : OpenFile) : Run f []
  | seek (f : OpenFile) (o : Int) (w : Whence) (cs : List FileCall) : Run (f.seek o w) cs → Run f (.seek o w (f.seek o w).seekPos :: cs)
  | read (f f' : OpenFile) (k : Nat) (data : Bytes) (err : Option FileErr) (cs : List FileCall) : f.Reads k data err f' → Run f' cs →
    Run f (.read k data err :: cs)

/-! ## Directories -/

/-- traceapp/tmpl/data_vfsdata.go:206-209 `_vfsgen_dir`. -/
structure OpenDir (α : Type) where
  entries : List α
  pos : Nat

/-- traceapp/tmpl/data_vfsdata.go:219-229 `Readdir`; `none` is `io.EOF`. -/
def OpenDir.readdir {α : Type} (d : OpenDir α) (count : Int) : Option (List α) × OpenDir α :=
  if d.pos ≥ d.entries.length ∧ count > 0 then (none, d)
  else
    let n := if count ≤ 0 ∨ count > d.entries.length - d.pos then d.entries.length - d.pos else count.toNat
    (some ((d.entries.drop d.pos).take n), { d with pos := d.pos + n })

/-- A sequence of `Readdir` calls with the given counts. -/
def OpenDir.run {α : Type} (d : OpenDir α) : List Int → List (Option (List α)) × OpenDir α
  | [] => ([], d)
  | c :: cs => ((d.readdir c).1 :: ((d.readdir c).2.run cs).1, ((d.readdir c).2.run cs).2)

end Appdash
