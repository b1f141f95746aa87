import Verif.Model.TracesScript

/-!
# Model of the menus "Import JSON" and "Export Selected" (the scripts in traceapp/tmpl/data/traces.html)

This is the page in a browser without Flash, where ZeroClipboard reports an error and "Export Selected" shows its text in a menu
(traces.html:142-156).  Bootstrap's collapsible elements are in /repo only by name; of them it is assumed that `show`, `hide` and the toggle
of a button do what they say, that `show.bs.collapse` is triggered when a hidden element is shown, and that a user waits for the end of an
animation.
-/

namespace Appdash

/-- The characters that `String.prototype.trim` removes (ECMAScript, WhiteSpace and LineTerminator), in UTF-8. -/
def jsSpaces : List Bytes :=
  [[9], [10], [11], [12], [13], [32], [0xC2, 0xA0], [0xE1, 0x9A, 0x80], [0xE2, 0x80, 0x80], [0xE2, 0x80, 0x81], [0xE2, 0x80, 0x82],
    [0xE2, 0x80, 0x83], [0xE2, 0x80, 0x84], [0xE2, 0x80, 0x85], [0xE2, 0x80, 0x86], [0xE2, 0x80, 0x87], [0xE2, 0x80, 0x88], [0xE2, 0x80, 0x89],
    [0xE2, 0x80, 0x8A], [0xE2, 0x80, 0xA8], [0xE2, 0x80, 0xA9], [0xE2, 0x80, 0xAF], [0xE2, 0x81, 0x9F], [0xE3, 0x80, 0x80], [0xEF, 0xBB, 0xBF]]

/-- The text after one such character. -/
def dropSpace (s : Bytes) : Option Bytes :=
  jsSpaces.findSome? fun w => if w.isPrefixOf s then some (s.drop w.length) else none

/-- `String.prototype.trim`, at the beginning; `n` bounds the number of characters. -/
def trimStart : Nat → Bytes → Bytes
  | 0, s => s
  | n + 1, s =>
    match dropSpace s with
    | none => s
    | some s => trimStart n s

/-- traceapp/tmpl/data/traces.html:100: `data.trim().length == 0`; this holds if nothing is left at the beginning. -/
def jsBlank (s : Bytes) : Bool := (trimStart s.length s).isEmpty

/-- The page: boxes and selection, whether the two menus are shown (traces.html:41-44), the texts in them, and the bodies of the requests
that were posted to /traces/upload. -/
structure TracesMenus where
  page : TracesPage
  importShown : Bool
  exportShown : Bool
  importText : Bytes
  exportText : Bytes
  posted : List Bytes
deriving DecidableEq, Repr

/-- What a user can do. -/
inductive MenuAct where
  /-- A click on a box or on "Toggle Selection". -/
  | click (c : TracesClick)
  /-- The button "Import JSON" at the top. -/
  | importButton
  /-- "Export Selected". -/
  | exportSelected
  /-- "Cancel" in the menu for imports. -/
  | importCancel
  /-- "Cancel" in the menu for exports. -/
  | exportCancel
  /-- The text in the menu for imports is changed. -/
  | importType (s : Bytes)
  /-- The text in the menu for exports is changed. -/
  | exportType (s : Bytes)
  /-- "Import JSON" in the menu. -/
  | importAction
deriving DecidableEq, Repr

/-- The page as it is loaded (traceapp/tmpl/data/layout.html:211, 218: the menus are not shown and have no text). -/
def TracesMenus.load (nils : SpanID → Bool × Bool) (trs : List Tree) : TracesMenus := ⟨.load nils trs, false, false, [], [], []⟩

/-- traceapp/tmpl/data/traces.html:146-154: "Export Selected".  The menu for imports is hidden when the other one appears (87-89).  If
`selected` throws, the text stays. -/
def TracesMenus.export (stringify : JVal → Bytes) (m : TracesMenus) : TracesMenus :=
  let m := { m with importShown := m.exportShown && m.importShown, exportShown := true }
  match m.page.selected with
  | none => m
  | some sel => if sel.length = 0 then m else { m with exportText := stringify (.arr sel) }

/-- traceapp/tmpl/data/traces.html:78-112, 142-156 and layout.html:223-228. -/
def TracesMenus.act (stringify : JVal → Bytes) (m : TracesMenus) : MenuAct → TracesMenus
  | .click c => { m with page := m.page.click c }
  | .importButton => { m with importShown := !m.importShown, exportShown := false }
  | .exportSelected => m.export stringify
  | .importCancel => { m with importShown := false }
  | .exportCancel => { m with exportShown := false }
  | .importType s => { m with importText := s }
  | .exportType s => { m with exportText := s }
  | .importAction => if jsBlank m.importText then m else { m with posted := m.posted ++ [m.importText] }

/-- What has been done on a page. -/
def TracesMenus.run (stringify : JVal → Bytes) (m : TracesMenus) (acts : List MenuAct) : TracesMenus := acts.foldl (TracesMenus.act stringify) m

end Appdash
