import Verif.Prelude

/-!
# Goroutines sharing one mutex

A generic small-step model of any number of goroutines that call operations whose bodies run between `Lock` and
`Unlock` of one `sync.Mutex` (id.go:58-71, store.go:105-110, 243-247, 259-262, 276-280, collector.go:155-157,
342-344, 354-356).  A body is an arbitrary sequence of individual steps on the shared state, and the scheduler may
switch goroutines between any two steps.
-/

namespace Appdash.Mutex

/-- How the body of each operation is cut into steps.  `step l s s' (.inl l')` is one step that leaves the body at
`l'`; `step l s s' (.inr r)` is the last one, which returns `r` (and unlocks). -/
structure Machine (S Op R : Type) where
  L : Type
  start : Op → L
  step : L → S → S → L ⊕ R → Prop

variable {S Op R : Type}

/-- What one goroutine is doing. -/
inductive TState (M : Machine S Op R) where
  | idle
  /-- Called, but the lock is not taken yet. -/
  | waiting (op : Op)
  /-- In the body, holding the lock. -/
  | inside (op : Op) (l : M.L)

/-- The whole system: shared memory, the mutex, all goroutines, and (as a history variable) the operations that have
finished, in order. -/
structure Config (M : Machine S Op R) where
  shared : S
  holder : Option Nat
  threads : Nat → TState M
  log : List (Nat × Op × R)

/-- Set the state of goroutine `i`. -/
def setThread {M : Machine S Op R} (f : Nat → TState M) (i : Nat) (x : TState M) : Nat → TState M :=
  fun j => if j = i then x else f j

/-- One step of the scheduler.  `micro` and `finish` do not look at the mutex: mutual exclusion is a theorem. -/
inductive Step (M : Machine S Op R) : Config M → Config M → Prop
  | call (c : Config M) (i : Nat) (op : Op) : c.threads i = .idle →
      Step M c { c with threads := setThread c.threads i (.waiting op) }
  | lock (c : Config M) (i : Nat) (op : Op) : c.threads i = .waiting op → c.holder = none →
      Step M c { c with holder := some i, threads := setThread c.threads i (.inside op (M.start op)) }
  | micro (c : Config M) (i : Nat) (op : Op) (l l' : M.L) (s' : S) : c.threads i = .inside op l →
      M.step l c.shared s' (.inl l') →
      Step M c { c with shared := s', threads := setThread c.threads i (.inside op l') }
  | finish (c : Config M) (i : Nat) (op : Op) (l : M.L) (s' : S) (r : R) : c.threads i = .inside op l →
      M.step l c.shared s' (.inr r) →
      Step M c { shared := s', holder := none, threads := setThread c.threads i .idle, log := c.log ++ [(i, op, r)] }

/-- The initial configuration. -/
def Config.init (M : Machine S Op R) (s : S) : Config M :=
  { shared := s, holder := none, threads := fun _ => .idle, log := [] }

/-- Configurations reachable by any interleaving of any number of goroutines. -/
inductive Reachable (M : Machine S Op R) (s : S) : Config M → Prop
  | init : Reachable M s (Config.init M s)
  | step {c c' : Config M} : Reachable M s c → Step M c c' → Reachable M s c'

/-- Running a body alone, from the first step to the last. -/
inductive Runs (M : Machine S Op R) : M.L → S → S → R → Prop
  | done {l : M.L} {s s' : S} {r : R} : M.step l s s' (.inr r) → Runs M l s s' r
  | more {l l' : M.L} {s s' s'' : S} {r : R} : M.step l s s' (.inl l') → Runs M l' s' s'' r → Runs M l s s'' r

/-- Performing finished operations one at a time, each alone. -/
inductive Sequential (exec : Op → S → S → R → Prop) : S → List (Nat × Op × R) → S → Prop
  | nil (s : S) : Sequential exec s [] s
  | snoc {s s' s'' : S} {log : List (Nat × Op × R)} {i : Nat} {op : Op} {r : R} : Sequential exec s log s' →
      exec op s' s'' r → Sequential exec s (log ++ [(i, op, r)]) s''

end Appdash.Mutex
