import Verif.Model.Views

/-!
# Model of the buttons that sort the timeline (the script in traceapp/tmpl/data/trace.html)
-/

namespace Appdash

/-- The buttons (traceapp/tmpl/data/trace.html:100-103, 555-559). -/
inductive SortBy where
  | start
  | finish
  | duration
  | label
deriving DecidableEq, Repr

/-- What the script uses of JavaScript: the number that a numeral is read as (a double, which is an integer if the numeral is one), the
UTF-16 code units of a string after `toLowerCase`, and `Array.prototype.sort`. -/
structure Browser where
  num : Int → Int
  lower : Bytes → List Nat
  sort : (TimelineItem → TimelineItem → Int) → List TimelineItem → List TimelineItem

/-- traceapp/tmpl/data/trace.html:456-459 `lastSort`; `none` is the empty name. -/
structure LastSort where
  name : Option SortBy
  descending : Bool
deriving DecidableEq, Repr

/-- traceapp/tmpl/data/trace.html:460-473 `toggleOrder`. -/
def LastSort.toggleOrder (s : LastSort) (name : SortBy) : LastSort × Int :=
  if s.name ≠ some name then (⟨some name, false⟩, 1)
  else (⟨s.name, !s.descending⟩, if !s.descending then -1 else 1)

/-- traceapp/tmpl/data/trace.html:479-492, 499-512, 519-532: compare two items by a number of their first timespans. -/
def compareTimes (num : Int → Int) (f : TimelineSpan → Int) (order : Int) (a b : TimelineItem) : Int :=
  match a.times, b.times with
  | x :: _, y :: _ => if num (f x) < num (f y) then order * -1 else if num (f x) > num (f y) then order else 0
  | _, _ => -1

/-- traceapp/tmpl/data/trace.html:539-551: compare two items by their labels. -/
def compareLabels (lower : Bytes → List Nat) (order : Int) (a b : TimelineItem) : Int :=
  if lower a.label < lower b.label then order * -1 else if lower b.label < lower a.label then order else 0

/-- The comparison functions. -/
def compareItems (B : Browser) (order : Int) : SortBy → TimelineItem → TimelineItem → Int
  | .start => compareTimes B.num TimelineSpan.start order
  | .finish => compareTimes B.num TimelineSpan.fin order
  | .duration => compareTimes B.num TimelineSpan.duration order
  | .label => compareLabels B.lower order

/-- traceapp/tmpl/data/trace.html:476-553: a click on a button; the state is `lastSort` and `data`. -/
def clickSort (B : Browser) (st : LastSort × List TimelineItem) (name : SortBy) : LastSort × List TimelineItem :=
  ((st.1.toggleOrder name).1, B.sort (compareItems B (st.1.toggleOrder name).2 name) st.2)

/-- Clicks on a page that has just been loaded. -/
def clicksSort (B : Browser) (data : List TimelineItem) (clicks : List SortBy) : LastSort × List TimelineItem :=
  clicks.foldl (clickSort B) (⟨none, false⟩, data)

/-- traceapp/tmpl/data/trace.html:363-370 of `timelineHover`: the items that are drawn, from top to bottom. -/
def drawnItems (data : List TimelineItem) : List TimelineItem := data.filter fun i => i.visible

end Appdash
