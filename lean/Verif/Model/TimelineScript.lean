import Verif.Model.Views

/-!
# Model of the timeline's menu (the script in traceapp/tmpl/data/trace.html)

The script works on the list `data` of the items.  It changes nothing but their `visible` flags, which are kept apart here, by
index.  A call of a recursive function is given a bound on the depth of the recursion; `none` means that the bound was not enough.  A
browser's stack has such a bound.

Annotation keys that are names of properties of every JavaScript object (`toString`, `__proto__`, …) are not considered.
-/

namespace Appdash

/-- traceapp/tmpl/data/trace.html:178-186 `setChildrenVisible`, 212-238 `descend` and 275-287 of `filterChildren`: they differ only in
the flag that an item gets. -/
def walkChildren (data : List TimelineItem) (mark : TimelineItem → Bool) : Nat → Bytes → (Nat → Bool) → Option (Nat → Bool)
  | 0, _, _ => none
  | n + 1, spanID, vis =>
    data.zipIdx.foldlM (fun vis (other, i) =>
      if other.parentSpanID ≠ spanID then some vis
      else walkChildren data mark n other.spanID fun j => if j = i then mark other else vis j) vis

/-- traceapp/tmpl/data/trace.html:178-186 `setChildrenVisible`. -/
def setChildrenVisible (data : List TimelineItem) (n : Nat) (spanID : Bytes) (visible : Bool) (vis : Nat → Bool) :
    Option (Nat → Bool) := walkChildren data (fun _ => visible) n spanID vis

/-- traceapp/tmpl/data/trace.html:258-273: key and value of a strict filter, `none` for a fuzzy one. -/
def strictFilter (filter : Bytes) : Option (Bytes × Bytes) :=
  match splitOn 58 filter with
  | [k, v] => if v.head? = some 34 ∧ v.getLast? = some 34 then some (k, v.tail.dropLast) else none
  | _ => none

/-- traceapp/tmpl/data/trace.html:203-288 `filterChildren` and `filterChildrenFuzzy`.  The fuzzy search in an item (package Fuse) is left
open.  (The fuzzy filter is cut to 32 characters; here they are bytes.) -/
def filterChildren (fuzzy : Bytes → TimelineItem → Bool) (data : List TimelineItem) (n : Nat) (spanID filter : Bytes)
    (vis : Nat → Bool) : Option (Nat → Bool) :=
  match strictFilter filter with
  | some (k, v) => walkChildren data (fun other => decide (AMap.get other.data k = some v)) n spanID vis
  | none => walkChildren data (fuzzy (filter.take 32)) n spanID vis

end Appdash
