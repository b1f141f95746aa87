import Verif.Model.Recent
import Verif.Model.Persist

/-!
# Model of `appdash serve` over restarts (cmd/appdash/serve_cmd.go)

With `--store-file` and `--delete-after`, as by default.  The process can die at any point and be started again.  The store file is
replaced as a whole, as C32 shows, so here writing it is one step.  Only what the server does to its store is modelled here; the
collector server and the web pages are modelled elsewhere.
-/

namespace Appdash

/-- cmd/appdash/serve_cmd.go:57-103: the store of the running process, and the store file if there is one. -/
structure Server where
  rs : RecentStore
  file : Option GobData

namespace Server

/-- The server is started for the first time: there is no store file. -/
def start : Server := { rs := RecentStore.new, file := none }

/-- cmd/appdash/serve_cmd.go:60, 66-80: the `MemoryStore` that a process starts with.  `os.IsNotExist` is not an error. -/
def initialStore : Option GobData → MemStore
  | none => MemStore.new
  | some d => (MemStore.new.readFrom (some d)).1

end Server

/-- What can be observed of one step of a server. -/
inductive ServeObs where
  /-- Something happens in the `RecentStore`. -/
  | recent (o : RecentObs)
  /-- `PersistEvery` replaces the store file. -/
  | persist
  /-- The process dies and is started again. -/
  | restart
deriving DecidableEq, Repr

/-- One step of a server with `--delete-after` `age`. -/
inductive ServeStep (age : Int) : Server → ServeObs → Server → Prop where
  /-- cmd/appdash/serve_cmd.go:98-103: the collector calls a `RecentStore` over the `MemoryStore`. -/
  | recent {sv : Server} {o : RecentObs} {rs : RecentStore} : RecentStep age sv.rs o rs →
      ServeStep age sv (.recent o) { sv with rs := rs }
  /-- cmd/appdash/serve_cmd.go:81-87: `PersistEvery` writes the `MemoryStore`. -/
  | persist {sv : Server} {d : GobData} : sv.rs.under.Writes d → ServeStep age sv .persist { sv with file := some d }
  /-- cmd/appdash/serve_cmd.go:58-103: a new `RecentStore` over the `MemoryStore` read from the file. -/
  | restart {sv : Server} :
      ServeStep age sv .restart { sv with rs := { RecentStore.new with under := Server.initialStore sv.file } }

/-- An execution and what can be observed of it. -/
inductive ServeRuns (age : Int) : Server → List ServeObs → Server → Prop where
  | nil {sv : Server} : ServeRuns age sv [] sv
  | snoc {sv sv' sv'' : Server} {h : List ServeObs} {o : ServeObs} :
      ServeRuns age sv h sv' → ServeStep age sv' o sv'' → ServeRuns age sv (h ++ [o]) sv''

end Appdash
