import Verif.Model.Store

/-!
# Model of trace upload: `traceapp/app.go` and `traceapp/trace.go`

The store is a `MemoryStore`.  Its `Collect` never returns an error, so the only way for an upload to stop early is a
panic (which the HTTP handler turns into an error response, see `Verif.Model.Handler`).
-/

namespace Appdash

/-- A decoded `*appdash.Trace` (trace.go:14-17).  JSON `null` decodes to a nil pointer, at the top level and inside
`Sub`. -/
inductive PTree where
  | nil
  | node (span : Span) (sub : List PTree)
deriving Repr, Inhabited

mutual
/-- A trace without nil pointers. -/
def PTree.ofTree : Tree → PTree
  | .node s ts => .node s (PTree.ofTrees ts)
/-- `ofTree` of a list. -/
def PTree.ofTrees : List Tree → List PTree
  | [] => []
  | t :: ts => PTree.ofTree t :: PTree.ofTrees ts
end

mutual
/-- traceapp/trace.go:8-23 `collectTrace`.  The state of the store when the call ends, and whether it ended normally
(`true`) or in a panic (`false`: a nil `*Trace`, or a panic inside `Collect`). -/
def collectTrace (ms : MemStore) : PTree → MemStore × Bool
  | .nil => (ms, false)
  | .node s subs =>
    -- trace.go:10-13
    match ms.collect s.id s.annotations with
    | none => (ms, false)
    -- trace.go:16-21
    | some ms => collectSubs ms subs
/-- traceapp/trace.go:16-21, the loop over `t.Sub`. -/
def collectSubs (ms : MemStore) : List PTree → MemStore × Bool
  | [] => (ms, true)
  | t :: ts =>
    match collectTrace ms t with
    | (ms, false) => (ms, false)
    | (ms, true) => collectSubs ms ts
end

/-- traceapp/app.go:312-329 `App.uploadTraces`.  Same result as `collectTrace`. -/
def uploadTraces (ms : MemStore) : List PTree → MemStore × Bool
  | [] => (ms, true)
  -- app.go:316, `trace.Span` with a nil trace
  | .nil :: _ => (ms, false)
  | .node s subs :: rest =>
    match ms.tracePtr s.id.trace with
    -- app.go:317-320
    | some _ => uploadTraces ms rest
    -- app.go:322-325
    | none =>
      match collectTrace ms (.node s subs) with
      | (ms, false) => (ms, false)
      | (ms, true) => uploadTraces ms rest

end Appdash
