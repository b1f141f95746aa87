import Verif.Model.Recent
import Verif.Spec.Store

/-! # Specification vocabulary for `RecentStore` -/

namespace Appdash.Spec

/-- Effect of one observation on the time at which trace `t` was first seen. -/
def firstSeenStep (t : ID) (s : Option Int) : RecentObs → Option Int
  | .call c id _ evicted =>
    if t ∈ evicted then none
    else if id.trace = t then some (s.getD c.seen)
    else s
  | _ => s

/-- When trace `t` was first seen since its last eviction was decided; `none` if it was not. -/
def firstSeen (t : ID) (h : List RecentObs) : Option Int := h.foldl (firstSeenStep t) none

/-- Effect of one observation on the `Collect` calls for trace `t`. -/
def recentStep (t : ID) (L : List Entry) : RecentObs → List Entry
  | .call _ id as evicted => if t ∈ evicted then [] else if id.trace = t then L ++ [(id, as)] else L
  | _ => L

/-- The `Collect` calls for trace `t` since its last eviction was decided. -/
def recentCalls (t : ID) (h : List RecentObs) : List Entry := h.foldl (recentStep t) []

/-- The observations are made with a clock that does not go backwards: `now` is the last reading before `h`. -/
def Monotone : Int → List RecentObs → Prop
  | _, [] => True
  | now, .call c _ _ _ :: h =>
    now ≤ c.seen ∧ c.seen ≤ c.since ∧ c.since ≤ c.cutoff ∧ c.cutoff ≤ c.evict ∧ Monotone c.evict h
  | now, .stored _ _ :: h => Monotone now h
  | now, .deleted _ :: h => Monotone now h

/-- The underlying call that was made, if any. -/
def underlying : RecentObs → Option StoreOp
  | .stored id as => some (.collect id as)
  | .deleted ids => some (.delete ids)
  | _ => none

/-- The arguments of a `Collect` call. -/
def called : RecentObs → Option Entry
  | .call _ id as _ => some (id, as)
  | _ => none

/-- The arguments of an underlying `Collect` call. -/
def passedOn : RecentObs → Option Entry
  | .stored id as => some (id, as)
  | _ => none

/-- The traces that one `Collect` call decides to evict, if there are any. -/
def decided : RecentObs → Option (List ID)
  | .call _ _ _ evicted => if evicted.length = 0 then none else some evicted
  | _ => none

/-- The argument of an underlying `Delete` call. -/
def carriedOut : RecentObs → Option (List ID)
  | .deleted ids => some ids
  | _ => none

/-- No `Collect` call for trace `t` overlaps an eviction of `t`: when `Collect` is called for `t`, that call does not
itself evict `t`, and every eviction of `t` decided earlier has been carried out; when an eviction of `t` is decided, the
underlying `Collect` has been called for all earlier calls for `t`. -/
def Apart (t : ID) (h : List RecentObs) : Prop :=
  ∀ h1 c id as ev h2, h = h1 ++ .call c id as ev :: h2 →
    (id.trace = t → t ∉ ev ∧
      (h1.filterMap decided).countP (fun l => decide (t ∈ l)) =
        (h1.filterMap carriedOut).countP (fun l => decide (t ∈ l))) ∧
    (t ∈ ev → (h1.filterMap called).countP (fun e => decide (e.1.trace = t)) =
      (h1.filterMap passedOn).countP (fun e => decide (e.1.trace = t)))

end Appdash.Spec
