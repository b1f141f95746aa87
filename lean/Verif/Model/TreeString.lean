import Verif.Model.Trace

/-!
# Model of `Trace.TreeString` (trace.go:42-48, 62-91)
-/

namespace Appdash

/-- `fmt`'s `%x` of a `uint64` (trace.go:67, 74, 76). -/
def hexID (i : ID) : Bytes := hexLoop 16 i.toNat []

/-- trace.go:63-64 `indent`. -/
def treeIndent (depth : Nat) : Bytes := List.replicate (4 * depth) 32

/-- trace.go:66-79: the line for the span. -/
def spanLine (depth : Nat) (s : Span) : Bytes :=
  if depth = 0 then b!"+ Trace " ++ hexID s.id.trace ++ [10]
  else
    (if depth = 1 then b!"|" else b!"|" ++ (treeIndent depth).drop 4) ++
      List.replicate 4 45 ++ b!"+ Span " ++ hexID s.id.span ++
      (if s.id.parent ≠ 0 then b!" (parent " ++ hexID s.id.parent ++ b!")" else []) ++ [10]

/-- trace.go:81-86: the line for an annotation. -/
def annotationLine (depth : Nat) (a : Annotation) : Bytes :=
  (if depth = 0 then b!"| " else b!"|" ++ (treeIndent depth).drop 1 ++ b!" | ") ++
    a.key ++ b!" = " ++ a.valueString ++ [10]

mutual

/-- trace.go:62-91 `Trace.treeString`: what it writes. -/
def treeStringAt (depth : Nat) : Tree → Bytes
  | .node s ts => spanLine depth s ++ s.annotations.flatMap (annotationLine depth) ++ treeStringList (depth + 1) ts

/-- trace.go:88-90: the loop over `t.Sub`. -/
def treeStringList (depth : Nat) : List Tree → Bytes
  | [] => []
  | t :: ts => treeStringAt depth t ++ treeStringList depth ts

end

/-- trace.go:44-48 `Trace.TreeString`. -/
def treeString (t : Tree) : Bytes := treeStringAt 0 t

end Appdash
