import Verif.Spec.Query
import Verif.Spec.Numerals
import Verif.Spec.Dashboard
import Verif.Spec.ID

/-!
# Specification vocabulary for the dashboard: the range of times
-/

namespace Appdash.Spec

/-- The end of the range, in nanoseconds from now, that the query string gives with the key: now if there is no setting, otherwise
72 hours less than the number of hours (computed with 64 bits). -/
def RangeEnd (query key : Bytes) (t : Int) : Prop :=
  ∃ text, FirstSetting query key text ∧ ((text = [] ∧ t = 0) ∨
    ∃ hours : Int, Integer text hours ∧ (-2 ^ 63 ≤ hours ∧ hours < 2 ^ 63) ∧
      (2 ^ 64 : Int) ∣ (hours - 72) * 3600000000000 - t ∧ -2 ^ 63 ≤ t ∧ t < 2 ^ 63)

/-- A link to the list of traces that shows just these: their IDs, 16 digits each, separated by commas. -/
def LinkTo (ids : List ID) (link : Bytes) : Prop :=
  ∃ texts : List Bytes, List.Forall₂ (fun text id => text.length = 16 ∧ (∀ c ∈ text, IsLowerHex c) ∧ hexValue text = some id.toNat) texts ids ∧
    link = b!"/traces?show=" ++ List.intercalate b!"," texts

end Appdash.Spec
