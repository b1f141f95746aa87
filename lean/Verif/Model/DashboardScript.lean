import Verif.Model.Dashboard

/-!
# Model of the page of the dashboard (the script in traceapp/tmpl/data/dashboard.html)

The table's and the slider's scripts are not in /repo.  Of them it is assumed that the table asks for its rows when the page is opened, when
`refresh` is called and when its refresh button is clicked, with the settings that `queryParams` returns at that moment; that it shows the
rows of each answer when it arrives; and that the slider calls the handler of `change` with its new value.
-/

namespace Appdash

/-- The two positions of the slider (traceapp/tmpl/data/dashboard.html:50). -/
structure SliderValue where
  low : Nat
  high : Nat
deriving DecidableEq, Repr

/-- traceapp/tmpl/data/dashboard.html:87-90 `queryParams`, as the query string in which jQuery sends it. -/
def SliderValue.query (v : SliderValue) : Bytes :=
  b!"start=" ++ (formatDec v.low ++ (b!"&end=" ++ formatDec v.high))

/-- traceapp/tmpl/data/dashboard.html:96: the heading. -/
def SliderValue.heading (v : SliderValue) : Bytes :=
  b!"Timeline: " ++ (formatDec v.low ++ (b!"-" ++ (formatDec v.high ++ b!" hours ago")))

/-- The page: the slider, the heading, whether the timer `t` is running (traceapp/tmpl/data/dashboard.html:93, 100-105), the requests that have
not been answered, and the positions for which the rows of the table were requested. -/
structure DashPage where
  slider : SliderValue
  heading : Bytes
  timer : Bool
  waiting : List SliderValue
  table : Option SliderValue
deriving DecidableEq, Repr

/-- traceapp/tmpl/data/dashboard.html:49-50, 54-59: the page that has just been opened. -/
def DashPage.opened : DashPage :=
  { slider := ⟨0, 72⟩, heading := b!"Timeline: 0-72 hours ago", timer := false, waiting := [⟨0, 72⟩], table := none }

/-- What can happen: the slider is moved, the timer ends, the refresh button is clicked, the answer to a request arrives, a request fails. -/
inductive DashEvent where
  | change (v : SliderValue)
  | timeout
  | refresh
  | answer (i : Nat)
  | failure (i : Nat)
deriving DecidableEq, Repr

/-- traceapp/tmpl/data/dashboard.html:94-106 (`change`, `timeout`) and 58 (`refresh`). -/
def DashPage.step (p : DashPage) : DashEvent → DashPage
  | .change v => { p with slider := v, heading := v.heading, timer := true }
  | .timeout => if p.timer then { p with timer := false, waiting := p.waiting ++ [p.slider] } else p
  | .refresh => { p with waiting := p.waiting ++ [p.slider] }
  | .answer i =>
    match p.waiting[i]? with
    | some v => { p with waiting := p.waiting.eraseIdx i, table := some v }
    | none => p
  | .failure i => { p with waiting := p.waiting.eraseIdx i }

/-- What has happened on a page. -/
def DashPage.run (p : DashPage) (events : List DashEvent) : DashPage := events.foldl DashPage.step p

end Appdash
