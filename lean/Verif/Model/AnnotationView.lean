import Verif.Model.Trace
import Verif.Model.Event

/-!
# Model of how the pages show a span's annotations

The HTML templates are modelled by the rows of the tables they make; their HTML is in Model/Html.lean.
-/

namespace Appdash

/-- span.go:181-195 `Annotation.Important`.  Go ranges over the registered events in random order, which does not matter. -/
def Annotation.important (reg : Registry) (a : Annotation) : Bool := reg.any fun e => e.2.important.any fun k => decide (a.key = k)

/-- traceapp/tmpl.go:145-154 `filterAnnotations`. -/
def filterAnnotations (as : List Annotation) : List Annotation :=
  as.filter fun a => decide (a.key ≠ []) && !(b!"_").isPrefixOf a.key

/-- The cells of a row (traceapp/tmpl/data/trace.html:637, 657, traces.html:66): key and value; a nil value is shown as nothing. -/
def rowCells (a : Annotation) : Bytes × Bytes := (a.key, a.value.getD [])

/-- traceapp/tmpl/data/trace.html:654-660: the table of all annotations of a span. -/
def verboseRows (as : List Annotation) : List (Bytes × Bytes) := (filterAnnotations as).map rowCells

/-- traceapp/tmpl/data/trace.html:633-641 and traces.html:62-70: the table shown first. -/
def shortRows (reg : Registry) (as : List Annotation) : List (Bytes × Bytes) :=
  ((filterAnnotations as).filter (Annotation.important reg)).map rowCells

end Appdash
