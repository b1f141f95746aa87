import Verif.Model.Views

/-!
# Model of the labels of the timeline (the script in traceapp/tmpl/data/trace.html)

Texts are the UTF-16 code units of JavaScript.  d3-timeline.js, which is not in /repo, draws for every item an element with the text `label`
of the item (the `$labels`), and for every timespan of the item a rectangle and a text (the `g>text`).
-/

namespace Appdash

/-- The escapes of `innerHTML` when it is read (HTML Living Standard 13.3, "escaping a string"). -/
def innerUnit (c : Nat) : List Nat :=
  if c = 38 then [38, 97, 109, 112, 59]
  else if c = 160 then [38, 110, 98, 115, 112, 59]
  else if c = 60 then [38, 108, 116, 59]
  else if c = 62 then [38, 103, 116, 59]
  else [c]

/-- The `innerHTML` of an element that has nothing but a text. -/
def innerHTML (text : List Nat) : List Nat := text.flatMap innerUnit

/-- traceapp/tmpl/data/trace.html:413-416 `filter`. -/
def shortenLabel (text : List Nat) : List Nat := if text.length < 14 then text else text.take 13 ++ [46, 46, 46]

/-- traceapp/tmpl/data/trace.html:439-442: the text of the label is set anew. -/
def relabel (text : List Nat) : List Nat := shortenLabel (innerHTML text)

/-- traceapp/tmpl/data/trace.html:426-449: the label of an item with the given name and number of timespans, after the loop. -/
def drawnLabel (name : List Nat) : Nat → List Nat
  | 0 => name
  | n + 1 => relabel (drawnLabel name n)

/-- The views below the timeline (traceapp/tmpl/data/trace.html:585-593). -/
inductive TraceView where
  | data
  | verbose
  | profile
deriving DecidableEq, Repr

/-- Which of the elements `#dataView`, `#verboseDataView` and `#profileView` are displayed. -/
structure ViewsShown where
  data : Bool
  verbose : Bool
  profile : Bool
deriving DecidableEq, Repr

/-- traceapp/tmpl/data/trace.html:570-572: the style sheet hides two of them. -/
def ViewsShown.initial : ViewsShown := ⟨true, false, false⟩

/-- traceapp/tmpl/data/trace.html:602-621: the handler of the buttons. -/
def ViewsShown.change (s : ViewsShown) (id : TraceView) : ViewsShown :=
  let s := if id = .data then { s with data := true } else { s with data := false }
  let s := if id = .verbose then { s with verbose := true } else { s with verbose := false }
  if id = .profile then { s with profile := true } else { s with profile := false }

end Appdash
