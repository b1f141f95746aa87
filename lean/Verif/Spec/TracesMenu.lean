import Verif.Model.TracesMenu
import Verif.Spec.TracesScript
import Verif.Spec.Pages
import Verif.Spec.JsonText

/-!
# Specification for the menus of the list of traces
-/

namespace Appdash.Spec

/-- What is assumed of `JSON.stringify` with indentation: it writes a JSON text of a value that was read from JSON. -/
def Stringifies (stringify : JVal → Bytes) : Prop := ∀ s v, IsJSON s v → IsJSON (stringify v) v

/-- The clicks on boxes and on "Toggle Selection" among what was done. -/
def clicksOf : List MenuAct → List TracesClick
  | [] => []
  | .click c :: acts => c :: clicksOf acts
  | _ :: acts => clicksOf acts

/-- The code points of white space and line ends in ECMAScript. -/
def jsWhite (u : Nat) : Prop :=
  9 ≤ u ∧ u ≤ 13 ∨ u = 32 ∨ u = 0xA0 ∨ u = 0x1680 ∨ 0x2000 ≤ u ∧ u ≤ 0x200A ∨ u = 0x2028 ∨ u = 0x2029 ∨ u = 0x202F ∨ u = 0x205F ∨
    u = 0x3000 ∨ u = 0xFEFF

/-- A text of nothing but these, in UTF-8. -/
inductive JsBlank : Bytes → Prop where
  | nil : JsBlank []
  | cons {u : Nat} {s : Bytes} (hu : jsWhite u) (hs : JsBlank s) : JsBlank (String.utf8EncodeChar (Char.ofNat u) ++ s)

/-- The two menus. -/
inductive Menu where
  | imports
  | exports
deriving DecidableEq, Repr

/-- The menu that is to be shown after something was done, if there was this one before: the button for imports opens that menu or closes it,
"Export Selected" opens the other one, and "Cancel" closes the menu it is in. -/
def shownNext : Option Menu → MenuAct → Option Menu
  | some .imports, .importButton => none
  | _, .importButton => some .imports
  | _, .exportSelected => some .exports
  | some .imports, .importCancel => none
  | some .exports, .exportCancel => none
  | shown, _ => shown

end Appdash.Spec
