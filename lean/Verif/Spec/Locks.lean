import Verif.Model.Locks

/-! # Specification for C164: objects without cycles, and calls that end -/

namespace Appdash.Spec
open Locks

/-- The objects that an object calls. -/
def uses : Kind → List Nat
  | .limit s => [s]
  | .recent s => [s]
  | .multi ss => ss
  | .chunked s => [s]
  | .recorder s => [s]
  | .server s => [s]
  | .memory => []
  | .remote => []
  | .leaf => []

/-- No object calls itself through others: they can be numbered such that each calls only objects with smaller numbers. -/
def NoCycles (sys : Nat → Kind) : Prop := ∀ n, ∀ s ∈ uses (sys n), s < n

/-- `k` steps of the goroutines that are there (and of those they start), without new calls. -/
inductive Steps : Nat → Config → Config → Prop
  | none (c : Config) : Steps 0 c c
  | more {k : Nat} {c c' c'' : Config} : Run c c' → Steps k c' c'' → Steps (k + 1) c c''

/-- All calls have returned. -/
def NoCallsLeft (c : Config) : Prop := ∀ p ∈ c.threads, p = []

/-- Goroutine `i` holds mutex `m`. -/
def Holds (c : Config) (i m : Nat) : Prop := c.holder m = some i

end Appdash.Spec
