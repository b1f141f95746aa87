import Verif.Model.TracesScript

/-!
# Model of the menu "View Mode" (the script in traceapp/tmpl/data/aggregate.html)

Addresses have no line terminators, which `.` in a regular expression would not match.
-/

namespace Appdash

/-- The letter that a regular expression with the flag `i` takes as the same. -/
def foldCase (c : UInt8) : UInt8 := if 65 ≤ c ∧ c ≤ 90 then c + 32 else c

/-- What follows the text at the beginning of the string, regardless of the case of letters. -/
def afterFold : Bytes → Bytes → Option Bytes
  | [], s => some s
  | _ :: _, [] => none
  | k :: ks, c :: s => if foldCase c = foldCase k then afterFold ks s else none

/-- traceapp/tmpl/data/aggregate.html:90, 92-93: the string with the first match of the regular expression `([?&])key=.*?(&|$)` replaced by
`$1key=value$2`; `none` if there is no match. -/
def replaceSetting (key value : Bytes) : Bytes → Option Bytes
  | [] => none
  | c :: s =>
    match (if c = 63 ∨ c = 38 then afterFold (key ++ [61]) s else none) with
    | some r => some (c :: (key ++ 61 :: value) ++ r.dropWhile fun x => x ≠ 38)
    | none => (replaceSetting key value s).map fun r => c :: r

/-- traceapp/tmpl/data/aggregate.html:89-98 `updateQueryStringParameter`. -/
def updateQueryStringParameter (uri key value : Bytes) : Bytes :=
  match replaceSetting key value uri with
  | some u => u
  | none => uri ++ (if 63 ∈ uri then 38 else 63) :: (key ++ 61 :: value)

/-- traceapp/tmpl/data/aggregate.html:100-105 `viewMode`: the address of the page afterwards. -/
def viewMode (href name : Bytes) : Bytes := updateQueryStringParameter href b!"view-mode" name

end Appdash
