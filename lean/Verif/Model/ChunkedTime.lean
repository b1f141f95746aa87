import Verif.Model.Chunked

/-!
# Model of `ChunkedCollector` with time (collector.go:45-273)

`Verif.Model.Chunked` with a clock.  What is left open there, when the timer fires and when a flush has taken too long, is what the code
says here.  What the code does not decide is bounded: a call of the underlying collector takes at most `collectTime`, and a goroutine that
can go on does so within `delay`.

Simplifications: times are natural numbers (nanoseconds, say); `Flush` reads the clock (208) when it takes the queue (210-215).
-/

namespace Appdash.Chunked

/-- The exported fields that matter (collector.go:84-103), and bounds on what the environment does. -/
structure Timing where
  minInterval : Nat
  /-- 0 is no time-out -/
  flushTimeout : Nat
  maxQueueSize : UInt64
  /-- the longest that a call of the underlying collector takes -/
  collectTime : Nat
  /-- the longest that a goroutine waits although it can go on -/
  delay : Nat
deriving DecidableEq, Repr

/-- The fields as `Verif.Model.Chunked` has them. -/
def Timing.cfg (τ : Timing) : Cfg := ⟨τ.maxQueueSize, decide (τ.flushTimeout ≠ 0)⟩

/-- collector.go:142-150 `NewChunkedCollector`, in nanoseconds, if the underlying collector takes at most `collectTime`. -/
def defaultTiming (collectTime delay : Nat) : Timing :=
  ⟨500000000, 2000000000, 32 * 1024 * 1024, collectTime, delay⟩

/-- The state with the clock and the times that matter. -/
structure Timed where
  s : State := {}
  now : Nat := 0
  /-- when the background goroutine has come to where it is -/
  bgSince : Nat := 0
  /-- collector.go:208: `start` of each flush -/
  start : Nat → Nat := fun _ => 0
  /-- when each flush has come to where it is -/
  since : Nat → Nat := fun _ => 0
  /-- when the timer has fired so far (a history variable) -/
  ticks : List Nat := []

/-- Replacing the value of a function. -/
def setAt (f : Nat → Nat) (a b : Nat) : Nat → Nat := fun x => if x = a then b else f x

/-- It can be as late as `now` without anything happening. -/
def Timed.MayBe (τ : Timing) (T : Timed) (now : Nat) : Prop :=
  (T.s.bg = .waiting → now ≤ T.bgSince + τ.minInterval + τ.delay) ∧
  (∀ e, T.s.bg = .failed e → now ≤ T.bgSince + τ.delay) ∧
  ∀ f ∈ T.s.flushes, now ≤ T.since f.id + if f.remaining = [] then τ.delay else τ.collectTime

/-- One step: time passes, or some goroutine does something. -/
inductive TStep (τ : Timing) : Timed → Timed → Prop
  | wait (T : Timed) (d : Nat) : T.MayBe τ (T.now + d) → TStep τ T { T with now := T.now + d }
  /-- somebody calls `Collect` -/
  | collect (T : Timed) (d : Delivery) :
      TStep τ T { T with s := (T.s.collect τ.cfg d).1, bgSince := if T.s.started then T.bgSince else T.now }
  /-- somebody calls `Flush` -/
  | flush (T : Timed) :
      TStep τ T { T with s := T.s.flushBegin, start := setAt T.start T.s.nextFlush T.now, since := setAt T.since T.s.nextFlush T.now }
  /-- the timer fires and the background goroutine calls `Flush` (251-254) -/
  | tick (T : Timed) : T.s.bg = .waiting → T.bgSince + τ.minInterval ≤ T.now →
      TStep τ T { T with
        s := { T.s.flushBegin with bg := .flushing T.s.nextFlush }, start := setAt T.start T.s.nextFlush T.now
        since := setAt T.since T.s.nextFlush T.now, ticks := T.ticks ++ [T.now] }
  /-- a flush has visited the next entry, and there is time for more (222-226) -/
  | send (T : Timed) (f : Flush) (pre post : List Flush) (d : Delivery) (before after : List Delivery) (err : Option Err) :
      T.s.flushes = pre ++ f :: post → f.remaining = before ++ d :: after →
      ¬ (τ.flushTimeout ≠ 0 ∧ T.now - T.start f.id > τ.flushTimeout) →
      TStep τ T { T with
        s := { T.s with
          flushes := pre ++ { f with remaining := before ++ after, errs := f.errs ++ err.toList } :: post
          history := T.s.history ++ [.send f.id d err] }
        since := setAt T.since f.id T.now }
  /-- a flush has visited the next entry and has taken too long (222-235) -/
  | sendTimeout (T : Timed) (f : Flush) (pre post : List Flush) (d : Delivery) (before after : List Delivery) (err : Option Err) :
      T.s.flushes = pre ++ f :: post → f.remaining = before ++ d :: after →
      (τ.flushTimeout ≠ 0 ∧ T.now - T.start f.id > τ.flushTimeout) →
      TStep τ T { T with
        s := { T.s with
          flushes := pre ++ { f with remaining := [], errs := f.errs ++ err.toList ++ [.queueDropped] } :: post
          history := T.s.history ++ [.send f.id d err, .timeout f.id (before ++ after)] }
        since := setAt T.since f.id T.now }
  /-- a flush called by a user returns (238-243) -/
  | flushEnd (T : Timed) (f : Flush) (pre post : List Flush) : T.s.flushes = pre ++ f :: post → f.remaining = [] →
      (∀ g, T.s.bg = .flushing g → g ≠ f.id) →
      TStep τ T { T with s := { T.s with flushes := pre ++ post, history := T.s.history ++ [.flushEnd f.id (flushErr f.errs)] } }
  /-- the flush of the background goroutine returns (238-243, 254) -/
  | bgFlushEnd (T : Timed) (f : Flush) (pre post : List Flush) : T.s.flushes = pre ++ f :: post → f.remaining = [] →
      T.s.bg = .flushing f.id →
      TStep τ T { T with
        s := { T.s with
          flushes := pre ++ post
          bg := match flushErr f.errs with
            | some e => .failed e
            | none => .waiting
          history := T.s.history ++ [.flushEnd f.id (flushErr f.errs)] }
        bgSince := T.now }
  /-- the background goroutine keeps the error (255-257) and starts the timer again (251) -/
  | store (T : Timed) (e : Err) : T.s.bg = .failed e →
      TStep τ T { T with s := { T.s with lastErr := some e, bg := .waiting, history := T.s.history ++ [.stored e] }, bgSince := T.now }
  /-- the background goroutine ends (259-260) -/
  | exit (T : Timed) : T.s.bg = .waiting → T.s.stopChan = .closed → TStep τ T { T with s := { T.s with bg := .exited } }
  /-- somebody calls `Stop` -/
  | stop (T : Timed) : TStep τ T { T with s := T.s.stop }

/-- Any number of steps. -/
inductive TSteps (τ : Timing) : Timed → Timed → Prop
  | refl (T : Timed) : TSteps τ T T
  | step {T T' T'' : Timed} : TSteps τ T T' → TStep τ T' T'' → TSteps τ T T''

/-- What can happen to a new collector. -/
def TReachable (τ : Timing) (T : Timed) : Prop := TSteps τ {} T

end Appdash.Chunked
