import Verif.Model.Wrap

/-!
# Specification vocabulary for the response behind the middleware
-/

namespace Appdash

/-- The handler sends something: it writes a status or data, or flushes a writer that can be flushed. -/
def Spec.Sends (caps : WriterCaps) (ops : List HandlerOp) : Prop :=
  ∃ o ∈ ops, match o with
    | .editHeader _ => False
    | .flush => caps.flusher = true
    | .writeHeader _ | .write _ => True

/-- The handler does not ask for optional interfaces, except that it flushes only if it can. -/
def Spec.Portable (next : WebHandler) : Prop :=
  ∃ ops : List HandlerOp, ∀ caps : WriterCaps,
    next caps = if caps.flusher then ops else ops.filter fun o => match o with
      | .flush => false
      | _ => true

end Appdash
