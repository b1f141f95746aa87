import Verif.Model.Store

/-!
# Model of who shares the backing arrays of annotation slices

`Collect(id, as...)` passes the slice `as` itself, not its elements: `MemoryStore` keeps it (store.go:125) and later appends to it
(store.go:133), `ChunkedCollector` does the same (collector.go:192, 195), and `Recorder` goes on to own the slice that its `Finish` has
passed (recorder.go:80, 98).  Here these slices are what they are in Go, a reference to an array with a length and a capacity, and
`append` writes into the array if there is room.

Everything else (`Verif.Model.Store`, `Verif.Model.Chunked`, …) copies annotations instead.
-/

namespace Appdash.Slices

/-- The backing arrays, by address. -/
abbrev Arrays := List (List Annotation)

/-- A slice of annotations: its backing array, its length and its capacity.  (None of the slices here starts anywhere else than at the
beginning of its array.)  The nil slice is the one with capacity 0. -/
structure Slice where
  arr : Nat := 0
  len : Nat := 0
  cap : Nat := 0
deriving DecidableEq, Repr

/-- The elements of a slice. -/
def Slice.read (s : Slice) (m : Arrays) : List Annotation := (m[s.arr]?.getD []).take s.len

/-- A new array that holds `as`, with room for `spare` more. -/
def allocate (m : Arrays) (as : List Annotation) (spare : Nat) : Arrays × Slice :=
  (m ++ [as ++ List.replicate spare default], ⟨m.length, as.length, as.length + spare⟩)

/-- Go's `append(s, as...)`: in place if there is room, else into a new array.  How much room a new array has is up to Go: `spare`. -/
def Slice.append (s : Slice) (m : Arrays) (as : List Annotation) (spare : Nat) : Arrays × Slice :=
  if s.len + as.length ≤ s.cap then
    let a := m[s.arr]?.getD []
    (m.set s.arr (a.take s.len ++ as ++ a.drop (s.len + as.length)), { s with len := s.len + as.length })
  else allocate m (s.read m ++ as) spare

/-- Go's `s[i] = a`. -/
def Slice.write (s : Slice) (m : Arrays) (i : Nat) (a : Annotation) : Arrays :=
  if i < s.len then m.set s.arr ((m[s.arr]?.getD []).set i a) else m

/-- store.go:88-95 `type MemoryStore struct`.  `tree` are its maps and nodes but for the annotations, and `anns` are the slices
`Span.Annotations` of the nodes. -/
structure Store where
  tree : MemStore := .new
  anns : Nat → Slice := fun _ => {}

/-- store.go:105-199 `MemoryStore.Collect(id, as...)`; `none` is a panic.  Line 125 keeps the slice, line 133 appends to the slice kept. -/
def Store.collect (st : Store) (m : Arrays) (id : SpanID) (as : Slice) (spare : Nat) : Option (Arrays × Store) :=
  match st.tree.collect id [] with
  | none => none
  | some tree =>
    match st.tree.spanGet id.trace id.span with
    | some a =>
      let r := (st.anns a).append m (as.read m) spare
      some (r.1, ⟨tree, fun x => if x = a then r.2 else st.anns x⟩)
    | none => some (m, ⟨tree, fun x => if x = st.tree.next then as else st.anns x⟩)

/-- The store with its slices read. -/
def Store.contents (st : Store) (m : Arrays) : MemStore :=
  { st.tree with heap := fun a => { st.tree.heap a with anns := (st.anns a).read m } }

/-- An entry of the map of a `ChunkedCollector` (collector.go:127): which of the maps the collector has had so far, and the key. -/
abbrev Entry := Nat × SpanID

/-- Slices of a program (`vars`), and stores, each behind a chunked collector.  `gen k` is how many maps the collector before store `k` has
handed over to its flushes; `pending k` are the entries of all its maps. -/
structure Sys where
  arrays : Arrays := []
  vars : Nat → Slice := fun _ => {}
  stores : Nat → Store := fun _ => {}
  gen : Nat → Nat := fun _ => 0
  pending : Nat → Entry → Option Slice := fun _ _ => none

/-- Replacing the value of a function. -/
def upd {α β : Type} [DecidableEq α] (f : α → β) (a : α) (b : β) : α → β := fun x => if x = a then b else f x

/-- What a program does. -/
inductive Op where
  /-- `v := []Annotation{as...}`, or anything else that makes a slice that shares nothing -/
  | make (v : Nat) (as : List Annotation) (spare : Nat)
  /-- `v = append(v, as...)`; recorder.go:75-81 `Recorder.Event` does this with the slice of its recorder -/
  | append (v : Nat) (as : List Annotation) (spare : Nat)
  /-- `v[i] = a` -/
  | write (v : Nat) (i : Nat) (a : Annotation)
  /-- `stores[k].Collect(id, v...)`; recorder.go:92-110 `Recorder.Finish` does this with the slice of its recorder -/
  | collect (k : Nat) (id : SpanID) (v : Nat) (spare : Nat)
  /-- `stores[k].Delete(ids...)` -/
  | delete (k : Nat) (ids : List ID)
  /-- `Collect(id, v...)` on the chunked collector before the store -/
  | queue (k : Nat) (id : SpanID) (v : Nat) (spare : Nat)
  /-- a flush takes the map (collector.go:210-215) -/
  | flush (k : Nat)
  /-- a flush sends an entry (collector.go:222-223) -/
  | send (k : Nat) (e : Entry) (spare : Nat)
  /-- an entry is dropped because the queue is (collector.go:182, 234) -/
  | drop (k : Nat) (e : Entry)
deriving Repr

/-- One operation; `none` is a panic. -/
def Sys.step (s : Sys) : Op → Option Sys
  | .make v as spare =>
    let r := allocate s.arrays as spare
    some { s with arrays := r.1, vars := upd s.vars v r.2 }
  | .append v as spare =>
    let r := (s.vars v).append s.arrays as spare
    some { s with arrays := r.1, vars := upd s.vars v r.2 }
  | .write v i a => some { s with arrays := (s.vars v).write s.arrays i a }
  | .collect k id v spare =>
    match (s.stores k).collect s.arrays id (s.vars v) spare with
    | none => none
    | some r => some { s with arrays := r.1, stores := upd s.stores k r.2 }
  | .delete k ids => some { s with stores := upd s.stores k { s.stores k with tree := (s.stores k).tree.delete ids } }
  | .queue k id v spare =>
    -- collector.go:190-196
    match s.pending k (s.gen k, id) with
    | some p =>
      if (s.vars v).len > 0 then
        let r := p.append s.arrays ((s.vars v).read s.arrays) spare
        some { s with arrays := r.1, pending := upd s.pending k (upd (s.pending k) (s.gen k, id) (some r.2)) }
      else some s
    | none => some { s with pending := upd s.pending k (upd (s.pending k) (s.gen k, id) (some (s.vars v))) }
  | .flush k => some { s with gen := upd s.gen k (s.gen k + 1) }
  | .send k e spare =>
    if e.1 < s.gen k then
      match s.pending k e with
      | none => some s
      | some p =>
        match (s.stores k).collect s.arrays e.2 p spare with
        | none => none
        | some r => some { s with
            arrays := r.1, stores := upd s.stores k r.2, pending := upd s.pending k (upd (s.pending k) e none) }
    else some s
  | .drop k e => some { s with pending := upd s.pending k (upd (s.pending k) e none) }

/-- A sequence of operations; `none` if one of them panics. -/
def Sys.run (s : Sys) : List Op → Option Sys
  | [] => some s
  | op :: ops =>
    match s.step op with
    | none => none
    | some s => s.run ops

end Appdash.Slices
