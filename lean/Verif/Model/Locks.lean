import Verif.Prelude

/-!
# Model of the mutexes of the package: what calls lock, in which order, and how goroutines block each other

The objects of a program (stores, collectors, recorders, servers) are numbered.  A call is the sequence of what it does to mutexes; everything
else is `work`, which is assumed to end.  Where a call depends on data (an error, an eviction, a time-out), every possibility is a program of
its own.  Deferred unlocks run also when a call panics (store.go:107, 245, 261, 278, 329, 339, 485, collector.go:157, 270, 344, 356), so that a
panic is one of the programs below; store.go:413-423, collector.go:210-215, 227-232, 255-257 and recorder.go:115-118, 134-136 unlock without
`defer`, and nothing between lock and unlock can panic there.
-/

namespace Appdash.Locks

/-- What the objects are, and which objects they call. -/
inductive Kind where
  /-- `MemoryStore` (store.go:88). -/
  | memory
  /-- `LimitStore` (store.go:463). -/
  | limit (store : Nat)
  /-- `RecentStore` (store.go:390). -/
  | recent (store : Nat)
  /-- `MultiStore`, `MultiQueryer` (multi.go:5, 46). -/
  | multi (stores : List Nat)
  /-- `ChunkedCollector` (collector.go:79). -/
  | chunked (collector : Nat)
  /-- `RemoteCollector` (collector.go:300). -/
  | remote
  /-- `Recorder` (recorder.go:17). -/
  | recorder (collector : Nat)
  /-- `CollectorServer` (collector.go:409). -/
  | server (collector : Nat)
  /-- An object that calls no other: the generator of IDs (id.go:58-74), the templates of the web application (traceapp/tmpl.go:45-46), the
  requests of a transport (httptrace/client.go:188-189, 215-217; readers are treated as if they excluded each other). -/
  | leaf

/-- What can be called. -/
inductive Call where
  | collect
  /-- `Trace` and `Traces`. -/
  | query
  | delete
  /-- `Write` and `ReadFrom`. -/
  | persist
  /-- `Flush`. -/
  | flush
  /-- A round of the background goroutine of a `ChunkedCollector` (collector.go:249-263). -/
  | tick
  /-- `Stop` of a `ChunkedCollector`, `Close` of a `RemoteCollector`. -/
  | stop
  /-- `Event`, `Annotation` and `Finish` of a `Recorder`. -/
  | record
  /-- `Errors` of a `Recorder`. -/
  | errors
  /-- The server reads a packet (collector.go:452-474). -/
  | packet
  /-- Any call of a leaf. -/
  | use

/-- The number of the mutex `mu` of an object. -/
def mu (n : Nat) : Nat := 2 * n + 1

/-- The number of the mutex `logMu` of an object. -/
def logMu (n : Nat) : Nat := 2 * n

/-- A step of a goroutine that starts no other. -/
inductive Base where
  | lock (m : Nat)
  | unlock (m : Nat)
  | work

/-- A step of a goroutine. -/
inductive Act where
  | base (b : Base)
  /-- The statement `go`. -/
  | spawn (p : List Base)

/-- Work under a mutex. -/
def under (m : Nat) : List Base := [.lock m, .work, .unlock m]

/-- A program without `go`. -/
def plain (p : List Base) : List Act := p.map .base

/-- `Delete`: store.go:276-280 for a `MemoryStore`; the method of the embedded store for the others. -/
inductive Deletes (sys : Nat → Kind) : Nat → List Base → Prop
  | memory {n : Nat} : sys n = .memory → Deletes sys n (under (mu n))
  | limit {n s : Nat} {p : List Base} : sys n = .limit s → Deletes sys s p → Deletes sys n p
  | recent {n s : Nat} {p : List Base} : sys n = .recent s → Deletes sys s p → Deletes sys n p

/-- The calls of `log()` (collector.go:388-395, 477-484) and other work, in any order. -/
def logging (n : Nat) (bs : List Bool) : List Base := (bs.map fun b => if b then under (logMu n) else [.work]).flatten

/-- What a call does. -/
inductive Does (sys : Nat → Kind) : Nat → Call → List Act → Prop
  /-- store.go:105-110, 243-248, 259-272, 327-348: `Collect`, `Trace`, `Traces`, `Write` and `ReadFrom`. -/
  | memory {n : Nat} {c : Call} : sys n = .memory → c = .collect ∨ c = .query ∨ c = .persist → Does sys n c (plain (under (mu n)))
  /-- `Delete`. -/
  | delete {n : Nat} {p : List Base} : Deletes sys n p → Does sys n .delete (plain p)
  /-- store.go:481-483: `Max` is 0. -/
  | limitZero {n s : Nat} : sys n = .limit s → Does sys n .collect []
  /-- store.go:484-496: the trace is known (or the slot is free, store.go:507-511). -/
  | limitKnown {n s : Nat} {p : List Act} : sys n = .limit s → Does sys s .collect p →
      Does sys n .collect (.base (.lock (mu n)) :: p ++ [.base (.unlock (mu n))])
  /-- store.go:498-512: the oldest trace is deleted first. -/
  | limitEvict {n s : Nat} {d : List Base} {p : List Act} : sys n = .limit s → Deletes sys s d → Does sys s .collect p →
      Does sys n .collect (.base (.lock (mu n)) :: plain d ++ p ++ [.base (.unlock (mu n))])
  /-- store.go:503-505: that fails. -/
  | limitFail {n s : Nat} {d : List Base} : sys n = .limit s → Deletes sys s d →
      Does sys n .collect (.base (.lock (mu n)) :: plain d ++ [.base (.unlock (mu n))])
  /-- store.go:487: `make` panics if `Max` is negative. -/
  | limitPanic {n s : Nat} : sys n = .limit s → Does sys n .collect (plain (under (mu n)))
  /-- The methods of the store that a `LimitStore` embeds. -/
  | limitQuery {n s : Nat} {p : List Act} : sys n = .limit s → Does sys s .query p → Does sys n .query p
  /-- store.go:412-426 `Collect`, nothing is evicted. -/
  | recent {n s : Nat} {p : List Act} : sys n = .recent s → Does sys s .collect p → Does sys n .collect (plain (under (mu n)) ++ p)
  /-- store.go:412-426, 430-459: traces are evicted by a goroutine that is started under the mutex. -/
  | recentEvict {n s : Nat} {d : List Base} {p : List Act} : sys n = .recent s → Deletes sys s d → Does sys s .collect p →
      Does sys n .collect ([.base (.lock (mu n)), .spawn d, .base (.unlock (mu n))] ++ p)
  /-- The methods of the store that a `RecentStore` embeds. -/
  | recentQuery {n s : Nat} {p : List Act} : sys n = .recent s → Does sys s .query p → Does sys n .query p
  /-- multi.go:12-34, 56-74: the stores are called in order, up to the first error (or, for `Trace`, the first trace). -/
  | multi {n : Nat} {c : Call} {stores : List Nat} {ps : List (Nat × List Act)} : sys n = .multi stores → c = .collect ∨ c = .query →
      ps.map (·.1) <+: stores → (∀ x ∈ ps, Does sys x.1 c x.2) → Does sys n c ((ps.map (·.2)).flatten)
  /-- collector.go:155-202 `Collect`, collector.go:268-273 `Stop`. -/
  | chunked {n s : Nat} {c : Call} : sys n = .chunked s → c = .collect ∨ c = .stop → Does sys n c (plain (under (mu n)))
  /-- collector.go:207-244 `Flush`: the pending spans are taken under the mutex and passed on without it; after a time-out it is locked to log. -/
  | flush {n s : Nat} {ps : List (List Act)} {late : Bool} : sys n = .chunked s → (∀ p ∈ ps, Does sys s .collect p) →
      Does sys n .flush (plain (under (mu n)) ++ ps.flatten ++ if late then plain (under (mu n)) else [])
  /-- collector.go:253-258: a flush, and the mutex is locked again to keep its error. -/
  | tick {n s : Nat} {p : List Act} {failed : Bool} : sys n = .chunked s → Does sys n .flush p →
      Does sys n .tick (p ++ if failed then plain (under (mu n)) else [])
  /-- collector.go:354-386 `Collect`, collector.go:342-352 `Close`: dialling, writing and logging under the mutex. -/
  | remote {n : Nat} {c : Call} {bs : List Bool} : sys n = .remote → c = .collect ∨ c = .stop →
      Does sys n c (plain (.lock (mu n) :: logging n bs ++ [.unlock (mu n)]))
  /-- recorder.go:74-109: calls of the collector without the mutex (the annotations, and a message if that fails), and then, if there is an
  error and no logger, the mutex (recorder.go:122-137). -/
  | record {n s : Nat} {ps : List (List Act)} {failed : Bool} : sys n = .recorder s → (∀ p ∈ ps, Does sys s .collect p) →
      Does sys n .record (ps.flatten ++ if failed then plain (under (mu n)) else [])
  /-- recorder.go:114-120 `Errors`. -/
  | errors {n s : Nat} : sys n = .recorder s → Does sys n .errors (plain (under (mu n)))
  /-- collector.go:461-473, 443-447: logging, the collector, and logging. -/
  | packet {n s : Nat} {p : List Act} {bs bs' : List Bool} : sys n = .server s → Does sys s .collect p →
      Does sys n .packet (plain (logging n bs) ++ p ++ plain (logging n bs'))
  /-- collector.go:454-459, 443-447: no packet can be read, which is logged. -/
  | noPacket {n s : Nat} {bs : List Bool} : sys n = .server s → Does sys n .packet (plain (logging n bs))
  /-- A leaf. -/
  | use {n : Nat} : sys n = .leaf → Does sys n .use (plain (under (mu n)))

/-- The goroutines, each with what it still has to do, and who holds each mutex. -/
structure Config where
  threads : List (List Act)
  holder : Nat → Option Nat

/-- No goroutines. -/
def Config.init : Config := ⟨[], fun _ => none⟩

/-- Change who holds a mutex. -/
def setHolder (h : Nat → Option Nat) (m : Nat) (x : Option Nat) : Nat → Option Nat := fun k => if k = m then x else h k

/-- One step of a goroutine.  `Lock` waits until nobody holds the mutex. -/
inductive Run : Config → Config → Prop
  | lock {c : Config} {i m : Nat} {p : List Act} : c.threads[i]? = some (.base (.lock m) :: p) → c.holder m = none →
      Run c ⟨c.threads.set i p, setHolder c.holder m (some i)⟩
  | unlock {c : Config} {i m : Nat} {p : List Act} : c.threads[i]? = some (.base (.unlock m) :: p) →
      Run c ⟨c.threads.set i p, setHolder c.holder m none⟩
  | work {c : Config} {i : Nat} {p : List Act} : c.threads[i]? = some (.base .work :: p) → Run c ⟨c.threads.set i p, c.holder⟩
  | spawn {c : Config} {i : Nat} {q : List Base} {p : List Act} : c.threads[i]? = some (.spawn q :: p) →
      Run c ⟨c.threads.set i p ++ [plain q], c.holder⟩

/-- What can happen: calls begin at any time, in any number of goroutines, and goroutines make steps in any order. -/
inductive Reachable (sys : Nat → Kind) : Config → Prop
  | init : Reachable sys Config.init
  | call {c : Config} {n : Nat} {call : Call} {p : List Act} : Reachable sys c → Does sys n call p →
      Reachable sys ⟨c.threads ++ [p], c.holder⟩
  | run {c c' : Config} : Reachable sys c → Run c c' → Reachable sys c'

end Appdash.Locks
