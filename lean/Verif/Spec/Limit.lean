import Verif.Model.Limit
import Verif.Spec.Store

/-! # Specification vocabulary for `LimitStore` -/

namespace Appdash.Spec

/-- The traces held, in admission order (oldest first), and for the trace `t` the calls that count for it.  A trace is
admitted when it is collected while not held; if then more than `max` are held, the oldest is evicted.  A trace that is
evicted, or deleted by the user, starts afresh. -/
structure Limited where
  held : List ID
  calls : List Entry

/-- Effect of one call. -/
def limitedStep (max : Nat) (t : ID) (s : Limited) : LimitOp → Limited
  | .collect id as _ =>
    let held := if id.trace ∈ s.held then s.held
      else if s.held.length < max then s.held ++ [id.trace]
      else s.held.tail ++ [id.trace]
    let calls := if id.trace = t then (if t ∈ s.held then s.calls else []) ++ [(id, as)] else s.calls
    { held := held, calls := if t ∈ held then calls else [] }
  | .delete ids => { s with calls := if t ∈ ids then [] else s.calls }

/-- The state after a sequence of calls. -/
def limited (max : Nat) (t : ID) (ops : List LimitOp) : Limited := ops.foldl (limitedStep max t) ⟨[], []⟩

end Appdash.Spec
