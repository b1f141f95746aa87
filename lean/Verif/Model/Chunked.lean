import Verif.Model.Wire

/-!
# Model of `ChunkedCollector` (collector.go:45-273)

The collector with any number of callers, running flushes, and the background goroutine.  Each section between `Lock`
and `Unlock` is one step (see `Verif.Model.Mutex` for why that loses nothing), each call of the underlying collector is
one step, and steps of different goroutines interleave freely.

Simplifications: time is not modelled, so the background goroutine may flush whenever it waits, and any flush may turn
out to have taken too long after any of its sends; logging and `OnFlush` are omitted; a nil and an empty pending map
are the same; the contents of annotation slices are copied (`Verif.Model.Slices` models their sharing).
-/

namespace Appdash.Chunked

/-- The errors returned by the collector. -/
inductive Err where
  /-- collector.go:48 `ErrQueueDropped` -/
  | queueDropped
  /-- collector.go:160 -/
  | stopped
  /-- an error of the underlying collector -/
  | underlying (n : Nat)
  /-- collector.go:241 -/
  | multiple (es : List Err)
deriving Repr

/-- The exported fields that matter (collector.go:95, 103); `flushTimeout` says whether `FlushTimeout` is non-zero. -/
structure Cfg where
  maxQueueSize : UInt64
  flushTimeout : Bool
deriving DecidableEq, Repr

/-- collector.go:142-150 `NewChunkedCollector`. -/
def defaultCfg : Cfg := { maxQueueSize := 32 * 1024 * 1024, flushTimeout := true }

/-- `stopChan` (collector.go:123). -/
inductive Chan where
  | nil
  | opened
  | closed
deriving DecidableEq, Repr

/-- The local variables of a running `Flush` (collector.go:207-244): `remaining` are the entries of the map not visited
yet. -/
structure Flush where
  id : Nat
  remaining : List Delivery
  errs : List Err
deriving Repr

/-- The goroutine started by `start` (collector.go:246-264). -/
inductive Background where
  | absent
  /-- in the `select` (251-252) -/
  | waiting
  /-- in `Flush` (254) -/
  | flushing (id : Nat)
  /-- between `Flush` and the assignment (254-257) -/
  | failed (e : Err)
  /-- returned (260) -/
  | exited
deriving Repr

/-- What a `Collect` call did with its data. -/
inductive Fate where
  | queued
  /-- refused together with everything that was pending -/
  | dropped (lost : List Delivery)
  | refused
deriving Repr

/-- What happened, in order (a history variable). -/
inductive Event where
  /-- `Collect` was called with `d`, did `fate`, and returned `err` -/
  | collect (d : Delivery) (fate : Fate) (err : Option Err)
  /-- flush `f` took the queue -/
  | flushBegin (f : Nat)
  /-- flush `f` called the underlying collector with `d`, which returned `err` -/
  | send (f : Nat) (d : Delivery) (err : Option Err)
  /-- flush `f` gave up, leaving `lost` unsent -/
  | timeout (f : Nat) (lost : List Delivery)
  /-- flush `f` returned `err` -/
  | flushEnd (f : Nat) (err : Option Err)
  /-- the background goroutine kept the error `e` of its flush -/
  | stored (e : Err)
  /-- `Stop` returned -/
  | stop
  /-- `Stop` panicked -/
  | stopPanic
deriving Repr

/-- collector.go:79-130 `type ChunkedCollector struct`, the running flushes, and the history. -/
structure State where
  lastErr : Option Err := none
  started : Bool := false
  stopped : Bool := false
  stopChan : Chan := .nil
  queueSize : UInt64 := 0
  pending : AMap SpanID (List Annotation) := []
  flushes : List Flush := []
  nextFlush : Nat := 0
  bg : Background := .absent
  history : List Event := []
deriving Repr

/-- collector.go:169-173, in `uint64` arithmetic. -/
def collectionSize (as : List Annotation) : UInt64 :=
  as.foldl (fun n a => n + UInt64.ofNat a.key.length + UInt64.ofNat (a.value.getD []).length) (3 * 8)

/-- collector.go:190-196. -/
def enqueue (pending : AMap SpanID (List Annotation)) (d : Delivery) : AMap SpanID (List Annotation) :=
  match pending.get d.1 with
  | some p => if d.2.length > 0 then pending.set d.1 (p ++ d.2) else pending
  | none => pending.set d.1 d.2

/-- collector.go:246-264 `ChunkedCollector.start`. -/
def State.start (s : State) : State := { s with stopChan := .opened, started := true, bg := .waiting }

/-- collector.go:155-203 `ChunkedCollector.Collect`. -/
def State.collect (cfg : Cfg) (s : State) (d : Delivery) : State × Option Err :=
  if s.stopped then ({ s with history := s.history ++ [.collect d .refused (some .stopped)] }, some .stopped)
  else
    let s := if s.started then s else s.start
    let size := collectionSize d.2
    if cfg.maxQueueSize ≠ 0 ∧ s.queueSize + size > cfg.maxQueueSize then
      ({ s with
          pending := [], queueSize := 0
          history := s.history ++ [.collect d (.dropped s.pending) (some .queueDropped)] }, some .queueDropped)
    else
      let s' := { s with queueSize := s.queueSize + size, pending := enqueue s.pending d }
      match s'.lastErr with
      | some e => ({ s' with lastErr := none, history := s.history ++ [.collect d .queued (some e)] }, some e)
      | none => ({ s' with history := s.history ++ [.collect d .queued none] }, none)

/-- collector.go:208-219: the beginning of `Flush`. -/
def State.flushBegin (s : State) : State :=
  { s with
    pending := [], queueSize := 0, nextFlush := s.nextFlush + 1
    flushes := s.flushes ++ [{ id := s.nextFlush, remaining := s.pending, errs := [] }]
    history := s.history ++ [.flushBegin s.nextFlush] }

/-- collector.go:238-243: the error `Flush` returns. -/
def flushErr : List Err → Option Err
  | [] => none
  | [e] => some e
  | es => some (.multiple es)

/-- collector.go:268-273 `ChunkedCollector.Stop`: `close` panics if the channel is nil or closed. -/
def State.stop (s : State) : State :=
  match s.stopChan with
  | .opened => { s with stopChan := .closed, stopped := true, history := s.history ++ [.stop] }
  | _ => { s with history := s.history ++ [.stopPanic] }

/-- One step of some goroutine. -/
inductive Step (cfg : Cfg) : State → State → Prop
  /-- somebody calls `Collect` -/
  | collect (s : State) (d : Delivery) : Step cfg s (s.collect cfg d).1
  /-- somebody calls `Flush` -/
  | flush (s : State) : Step cfg s s.flushBegin
  /-- the timer fires and the background goroutine calls `Flush` (253-254) -/
  | tick (s : State) : s.bg = .waiting → Step cfg s { s.flushBegin with bg := .flushing s.nextFlush }
  /-- a flush visits the next entry, in any order (222-225) -/
  | send (s : State) (f : Flush) (pre post : List Flush) (d : Delivery) (before after : List Delivery) (err : Option Err) :
      s.flushes = pre ++ f :: post → f.remaining = before ++ d :: after →
      Step cfg s { s with
        flushes := pre ++ { f with remaining := before ++ after, errs := f.errs ++ err.toList } :: post
        history := s.history ++ [.send f.id d err] }
  /-- a flush visits the next entry and then finds that it has taken too long (222-235) -/
  | sendTimeout (s : State) (f : Flush) (pre post : List Flush) (d : Delivery) (before after : List Delivery)
      (err : Option Err) : cfg.flushTimeout = true →
      s.flushes = pre ++ f :: post → f.remaining = before ++ d :: after →
      Step cfg s { s with
        flushes := pre ++ { f with remaining := [], errs := f.errs ++ err.toList ++ [.queueDropped] } :: post
        history := s.history ++ [.send f.id d err, .timeout f.id (before ++ after)] }
  /-- a flush called by a user returns (238-243) -/
  | flushEnd (s : State) (f : Flush) (pre post : List Flush) : s.flushes = pre ++ f :: post → f.remaining = [] →
      (∀ g, s.bg = .flushing g → g ≠ f.id) →
      Step cfg s { s with flushes := pre ++ post, history := s.history ++ [.flushEnd f.id (flushErr f.errs)] }
  /-- the flush of the background goroutine returns (238-243, 254) -/
  | bgFlushEnd (s : State) (f : Flush) (pre post : List Flush) : s.flushes = pre ++ f :: post → f.remaining = [] →
      s.bg = .flushing f.id →
      Step cfg s { s with
        flushes := pre ++ post
        bg := match flushErr f.errs with
          | some e => .failed e
          | none => .waiting
        history := s.history ++ [.flushEnd f.id (flushErr f.errs)] }
  /-- the background goroutine keeps the error (255-257) -/
  | store (s : State) (e : Err) : s.bg = .failed e →
      Step cfg s { s with lastErr := some e, bg := .waiting, history := s.history ++ [.stored e] }
  /-- the background goroutine ends (259-260) -/
  | exit (s : State) : s.bg = .waiting → s.stopChan = .closed → Step cfg s { s with bg := .exited }
  /-- somebody calls `Stop` -/
  | stop (s : State) : Step cfg s s.stop

/-- States reachable by any interleaving. -/
inductive Reachable (cfg : Cfg) : State → Prop
  | init : Reachable cfg {}
  | step {s s' : State} : Reachable cfg s → Step cfg s s' → Reachable cfg s'

end Appdash.Chunked
