import Verif.Model.TimelineScript
import Verif.Model.TimelineSort
import Verif.Model.Strconv

/-!
# Model of the timeline with its menus and buttons (the script in traceapp/tmpl/data/trace.html)

d3-timeline.js is not in /repo.  It is assumed to draw, for the list of items that it is given, a rectangle with a text for every timespan
of every item, and to give the rectangles of item `i` the ID "timelineItem_i", as the comment in trace.html:422-425 says and trace.html:386 uses.
-/

namespace Appdash

/-- traceapp/tmpl/data/trace.html:168-170 `numFromEnd`; `none` is the error if there is no digit at the end.  `parseInt` is exact for the
numbers that occur. -/
def numFromEnd (str : Bytes) : Option Nat :=
  match (str.reverse.takeWhile fun c => 48 ≤ c ∧ c ≤ 57).reverse with
  | [] => none
  | ds => parseDigits 0 ds

/-- The ID of the rectangles of item `i`. -/
def timelineItemID (i : Nat) : Bytes := b!"timelineItem_" ++ formatDec i

/-- The page.  The items carry their `visible` flags.  `target` is the span ID of the `dataObject` of the menu, if there is one; the names
are the headings of the menus (traceapp/tmpl/data/trace.html:74-98); the style sheet hides both menus at first (139-141). -/
structure TimelinePage where
  data : List TimelineItem
  last : LastSort
  target : Option Bytes
  name : Bytes
  menuShown : Bool
  filterName : Bytes
  filterShown : Bool

/-- What a user can do on the page. -/
inductive TimelineAct where
  /-- A click on one of the buttons that sort. -/
  | sort (k : SortBy)
  /-- A right click on the rectangle or the text of timespan `j` of the row `i`, counted from the top, from 0.  A right click on the label
  at the left of a row runs the handlers of all its timespans, so it is a right click on each of them, one after the other. -/
  | rightClick (i j : Nat)
  /-- "Show Children" or "Hide Children" in the menu. -/
  | showHide (visible : Bool)
  /-- "Filter" in the menu. -/
  | filter
  /-- "Close" in the menu. -/
  | close
  /-- A text and the return key in the menu for filters. -/
  | enter (text : Bytes)
  /-- "Close" in the menu for filters. -/
  | closeFilter
deriving DecidableEq, Repr

/-- The page as it is loaded. -/
def TimelinePage.load (items : List TimelineItem) : TimelinePage := ⟨items, ⟨none, false⟩, none, [], false, [], false⟩

/-- The flags, by index. -/
def flagsOf (data : List TimelineItem) : Nat → Bool := fun i => ((data[i]?).map fun it => it.visible).getD false

/-- The items with other flags. -/
def setFlags (data : List TimelineItem) (vis : Nat → Bool) : List TimelineItem := data.mapIdx fun i it => { it with visible := vis i }

/-- What the script in traceapp/tmpl/data/trace.html depends on: the browser's sorting, the fuzzy search, and the depth of its stack. -/
structure PageEnv where
  B : Browser
  fuzzy : Bytes → TimelineItem → Bool
  depth : Nat

/-- traceapp/tmpl/data/trace.html:346-356 `ctxMenuOpen` with the arguments of 427, 446-448.  `none`: the script fails. -/
def TimelinePage.open (p : TimelinePage) (i j : Nat) : Option TimelinePage :=
  match ((drawnItems p.data)[i]?).bind fun it => it.times[j]? with
  | none => some p
  | some datum =>
    match numFromEnd (timelineItemID i) with
    | none => none
    | some index =>
      match (drawnItems p.data)[index]? with
      | none => none
      | some obj => some { p with filterShown := false, target := some obj.spanID, name := datum.label, menuShown := true }

/-- traceapp/tmpl/data/trace.html:290-356, 476-559: what the page is after an act, `none` if the script fails.  What is not shown cannot be
clicked.  The timeline is drawn anew after every change of `data` (`timelineHover`). -/
def TimelinePage.act (E : PageEnv) (p : TimelinePage) : TimelineAct → Option TimelinePage
  | .sort k =>
    let st := clickSort E.B (p.last, p.data) k
    some { p with last := st.1, data := st.2 }
  | .rightClick i j => p.open i j
  | .showHide visible =>
    if p.menuShown then
      match p.target with
      | none => none
      | some spanID =>
        (setChildrenVisible p.data E.depth spanID visible (flagsOf p.data)).map fun vis =>
          { p with menuShown := false, data := setFlags p.data vis }
    else some p
  | .filter => if p.menuShown then some { p with menuShown := false, filterName := p.name, filterShown := true } else some p
  | .close => some { p with menuShown := false }
  | .enter text =>
    if p.filterShown then
      match p.target with
      | none => none
      | some spanID =>
        (filterChildren E.fuzzy p.data E.depth spanID text (flagsOf p.data)).map fun vis =>
          { p with filterShown := false, data := setFlags p.data vis }
    else some p
  | .closeFilter => some { p with filterShown := false }

/-- traceapp/tmpl/data/trace.html:427, 435-437: the address to which a click on the text of timespan `j` of the row `i` leads, if there is one.  A
click on the rectangle (399-402) leads to that of the item that d3-timeline.js has drawn it for. -/
def TimelinePage.click (p : TimelinePage) (i j : Nat) : Option Bytes :=
  match ((drawnItems p.data)[i]?).bind fun it => it.times[j]? with
  | none => none
  | some _ =>
    match numFromEnd (timelineItemID i) with
    | none => none
    | some index => ((drawnItems p.data)[index]?).map fun it => it.url

/-- What the page is after several acts. -/
def TimelinePage.run (E : PageEnv) (p : TimelinePage) (acts : List TimelineAct) : Option TimelinePage := acts.foldlM (TimelinePage.act E) p

end Appdash
