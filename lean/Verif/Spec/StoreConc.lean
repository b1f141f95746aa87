import Verif.Model.StoreConc

/-! # Specification vocabulary for concurrent store calls -/

namespace Appdash

/-- The mutating calls among finished calls. -/
def opsOf : List (Nat × StoreCall × StoreReply) → List StoreOp
  | [] => []
  | (_, .collect id as, _) :: l => .collect id as :: opsOf l
  | (_, .delete ids, _) :: l => .delete ids :: opsOf l
  | (_, .trace _, _) :: l => opsOf l
  | (_, .traces _, _) :: l => opsOf l

/-- The reply a call gets when the store is in state `ms`. -/
def replyFrom (ms : MemStore) : StoreCall → StoreReply → Prop
  | .collect _ _, r => r = .done
  | .delete _, r => r = .done
  | .trace t, r => r = .ptr (ms.tracePtr t)
  | .traces opts, r => ∃ ps, r = .ptrs ps ∧ ps.Perm (ms.tracesPtr opts)

end Appdash
