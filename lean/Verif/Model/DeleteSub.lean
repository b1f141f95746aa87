import Verif.Model.Store

/-!
# Model of `MemoryStore.deleteSubNoLock` (store.go:291-317)
-/

namespace Appdash

/-- store.go:307-312: the loop `for i, t := range root.Sub`.  `arr` is the array of the slice over which `range` goes (`todo` elements are left,
beginning at `i`) and `len` the current length of `root.Sub`, which begins in the same array.  `append(root.Sub[:i], root.Sub[i+1:]...)` moves
the later elements down within the array; `none` is the panic of a slice expression that is out of range. -/
def removeLoop (tr : Addr) : (todo i : Nat) → (arr : List Addr) → (len : Nat) → Option (List Addr × Nat)
  | 0, _, arr, len => some (arr, len)
  | todo + 1, i, arr, len =>
    if arr[i]? = some tr then
      if i + 1 ≤ len then
        removeLoop tr todo (i + 1) (arr.take i ++ (arr.take len).drop (i + 1) ++ arr.drop (len - 1)) (len - 1)
      else none
    else removeLoop tr todo (i + 1) arr len

/-- store.go:297-317 `deleteSubNoLock`: the store and the result; `none` is a panic (`root` nil in store.go:307, or the loop's). -/
def MemStore.deleteSub (ms : MemStore) (s : SpanID) (annotationsOnly : Bool) : Option (MemStore × Bool) :=
  match ms.span.get s.trace with
  | none => some (ms, false)
  | some sub =>
    match sub.get s.span with
    | none => some (ms, false)
    | some tr =>
      let ms := { ms with heap := heapUpd ms.heap tr { ms.heap tr with anns := [] } }
      if annotationsOnly then some (ms, true)
      else
        let ms := { ms with span := ms.span.set s.trace (sub.del s.span) }
        match ms.trace.get s.trace with
        | none => none
        | some root =>
          let cs := (ms.heap root).sub
          match removeLoop tr cs.length 0 cs cs.length with
          | none => none
          | some (arr, len) => some (ms.setSub root (arr.take len), true)

end Appdash
