import Verif.Model.Pages
import Verif.Model.TraceString

/-!
# Model of the menu "Traces" (the script in traceapp/tmpl/data/traces.html)

The browser gets the values of attributes as the template was given them.  `$.parseJSON` is the parser of JSON texts; on texts that
`Trace.String` has written, Go and JavaScript agree.
-/

namespace Appdash

/-- The member of a JavaScript object that was read from JSON: the last one of the name. -/
def jsMember (v : JVal) (k : Bytes) : Option JVal :=
  match v with
  | .obj l => (l.reverse.find? fun m => m.1 = k).map Prod.snd
  | _ => none

/-- traceapp/tmpl/data/traces.html:50-51: the box of a trace with its attribute `data-json-trace`. -/
structure TraceBox where
  json : Bytes
  ticked : Bool
deriving DecidableEq, Repr

/-- The boxes and the variable `checked` (traces.html:159). -/
structure TracesPage where
  boxes : List TraceBox
  checked : Bool
deriving DecidableEq, Repr

/-- traceapp/tmpl/data/traces.html:46-52, 159: the page as it is loaded, with all boxes ticked; `Visible` (app.go:248-250) is always true. -/
def TracesPage.load (nils : SpanID → Bool × Bool) (trs : List Tree) : TracesPage := ⟨trs.map fun t => ⟨t.string nils, true⟩, true⟩

/-- What a user can click on: a box, or "Toggle Selection". -/
inductive TracesClick where
  | box (i : Nat)
  | toggle
deriving DecidableEq, Repr

/-- A click.  traceapp/tmpl/data/traces.html:160-164 for "Toggle Selection"; boxes are ticked by the browser. -/
def TracesPage.click (p : TracesPage) : TracesClick → TracesPage
  | .box i => { p with boxes := p.boxes.modify i fun b => { b with ticked := !b.ticked } }
  | .toggle => ⟨p.boxes.map fun b => { b with ticked := !p.checked }, !p.checked⟩

/-- traceapp/tmpl/data/traces.html:119-128 `selected`; `none` is an exception of `$.parseJSON`. -/
def TracesPage.selected (p : TracesPage) : Option (List JVal) :=
  (p.boxes.filter fun b => b.ticked).mapM fun b => parseJSON b.json

/-- traceapp/tmpl/data/traces.html:183: `trace.ID.Trace`. -/
def traceOfJSON (v : JVal) : Option Bytes :=
  match (jsMember v b!"ID").bind fun i => jsMember i b!"Trace" with
  | some (.str s) => some s
  | _ => none

/-- `Array.prototype.join` without argument. -/
def jsJoin : List Bytes → Bytes
  | [] => []
  | [s] => s
  | s :: ss => s ++ b!"," ++ jsJoin ss

/-- traceapp/tmpl/data/traces.html:167-186: where "Aggregate View" leads. -/
def TracesPage.aggregateHref (base : Bytes) (p : TracesPage) : Option Bytes :=
  match p.selected with
  | none => none
  | some sel =>
    if sel.length = p.boxes.length then some (base ++ b!"aggregate")
    else
      match sel.mapM traceOfJSON with
      | none => none
      | some ids => some (base ++ b!"aggregate?selection=" ++ jsJoin ids)

/-- The query of the request for an address: what is after the first question mark and before a `#`. -/
def requestQuery (href : Bytes) : Bytes := (cutAt 63 (cutAt 35 href).1).2

/-- traceapp/tmpl/data/traces.html:119-128, 138, 153: the text that "Export Selected" offers is that of `JSON.stringify` for these
values. -/
def TracesPage.exported (p : TracesPage) : Option JVal := p.selected.map .arr

end Appdash
