import Verif.Model.Http

/-!
# Model of `redactHeaders` with the sharing of Go's slices (httptrace/client.go:81-102)

The values of an `http.Header` are slices.  `h[k] = v` shares the backing array of the request's slice, and `append(h[k], v...)`
writes into that array if it has spare capacity.
-/

namespace Appdash

/-- A slice of strings: the address of its backing array, where it starts, its length and its capacity. -/
structure GoSlice where
  arr : Nat
  off : Nat
  len : Nat
  cap : Nat
deriving DecidableEq, Repr

/-- The backing arrays, by address. -/
abbrev ArrayHeap := List (List Bytes)

/-- The elements of a slice. -/
def GoSlice.read (s : GoSlice) (heap : ArrayHeap) : List Bytes := ((heap[s.arr]?.getD []).drop s.off).take s.len

/-- Writing elements into an array from a position on. -/
def overwrite (a : List Bytes) (pos : Nat) (vs : List Bytes) : List Bytes := a.take pos ++ vs ++ a.drop (pos + vs.length)

/-- `append(s, vs...)`: in place if the capacity suffices, else into a new array.  (Go gives a new array spare capacity; nothing is
appended to it here, so it does not matter.) -/
def GoSlice.append (s : GoSlice) (heap : ArrayHeap) (vs : List Bytes) : ArrayHeap × GoSlice :=
  if s.len + vs.length ≤ s.cap then
    (heap.set s.arr (overwrite (heap[s.arr]?.getD []) (s.off + s.len) vs), { s with len := s.len + vs.length })
  else (heap ++ [s.read heap ++ vs], ⟨heap.length, 0, s.len + vs.length, s.len + vs.length⟩)

/-- The nil slice. -/
def GoSlice.nil : GoSlice := ⟨0, 0, 0, 0⟩

/-- httptrace/client.go:83-89.  `red1` is the package's slice `redacted` (httptrace/client.go:77-79). -/
def sliceHeaderLoop (red : Redaction) (red1 : GoSlice) : List (Bytes × GoSlice) → AMap Bytes GoSlice → AMap Bytes GoSlice
  | [], h => h
  | (k, v) :: es, h => sliceHeaderLoop red red1 es (AMap.set h k (if isRedacted red k then red1 else v))

/-- httptrace/client.go:90-96. -/
def sliceTrailerLoop (red : Redaction) (red1 : GoSlice) :
    List (Bytes × GoSlice) → ArrayHeap → AMap Bytes GoSlice → ArrayHeap × AMap Bytes GoSlice
  | [], heap, h => (heap, h)
  | (k, v) :: es, heap, h =>
    if isRedacted red k then sliceTrailerLoop red red1 es heap (AMap.set h k red1)
    else
      let r := ((AMap.get h k).getD .nil).append heap (v.read heap)
      sliceTrailerLoop red red1 es r.1 (AMap.set h k r.2)

/-- A header with its values read. -/
def readSlices (heap : ArrayHeap) (h : AMap Bytes GoSlice) : Header := h.map fun e => (e.1, e.2.read heap)

/-- httptrace/client.go:81-102 `redactHeaders`, as a relation: the arrays before, the arguments, the arrays afterwards and a possible
result. -/
def RedactsSlices (red : Redaction) (red1 : GoSlice) (heap : ArrayHeap) (header trailer : AMap Bytes GoSlice) (heap' : ArrayHeap)
    (m : AMap Bytes Bytes) : Prop :=
  ∃ hs ts : List (Bytes × GoSlice), hs.Perm header ∧ ts.Perm trailer ∧
    ∃ h, sliceTrailerLoop red red1 ts heap (sliceHeaderLoop red red1 hs []) = (heap', h) ∧
      ∃ es, es.Perm (readSlices heap' h) ∧ m = joinLoop es []

end Appdash
