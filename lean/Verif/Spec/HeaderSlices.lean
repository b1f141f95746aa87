import Verif.Model.HeaderSlices

/-!
# Specification vocabulary for shared header values
-/

namespace Appdash

/-- The slice lies within its array. -/
def GoSlice.Valid (s : GoSlice) (heap : ArrayHeap) : Prop :=
  s.len ≤ s.cap ∧ ∃ a, heap[s.arr]? = some a ∧ s.off + s.cap ≤ a.length

/-- The slices have no element in common, not even beyond their lengths. -/
def GoSlice.Apart (s t : GoSlice) : Prop := s.arr ≠ t.arr ∨ s.off + s.cap ≤ t.off ∨ t.off + t.cap ≤ s.off

/-- Maps with valid slices, of which those of the header that have spare capacity share it with no other. -/
structure Spec.Unshared (heap : ArrayHeap) (red1 : GoSlice) (header trailer : AMap Bytes GoSlice) : Prop where
  distinct : header.keys.Nodup ∧ trailer.keys.Nodup
  valid : ∀ e ∈ header ++ trailer, e.2.Valid heap
  constant : red1.Valid heap ∧ red1.read heap = [b!"REDACTED"]
  apart : ∀ e ∈ header, e.2.len = e.2.cap ∨
    (∀ f ∈ header, f.1 ≠ e.1 → e.2.Apart f.2) ∧ (∀ f ∈ trailer, e.2.Apart f.2) ∧ e.2.Apart red1

end Appdash
