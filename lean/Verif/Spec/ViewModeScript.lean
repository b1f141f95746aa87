import Verif.Model.ViewModeScript
import Verif.Spec.Query

/-!
# Specification vocabulary for the menu "View Mode"
-/

namespace Appdash.Spec

/-- The names of the view modes. -/
def ModeName (name : Bytes) : Prop := name = b!"trace-only" ∨ name = b!"span-only" ∨ name = b!"trace-and-span"

/-- The view mode is set in the query only in the form `view-mode=…`, without percent signs, with an equals sign and in small letters. -/
def PlainModes (query : Bytes) : Prop :=
  ∃ settings : List Bytes, (∀ s ∈ settings, 38 ∉ s) ∧ query = List.intercalate [38] settings ∧
    ∀ s ∈ settings, ((∃ v, Sets s b!"view-mode" v) ∨
      ∃ v, s.map (fun c => if 65 ≤ c ∧ c ≤ 90 then c + 32 else c) = b!"view-mode=" ++ v) → ∃ v, s = b!"view-mode=" ++ v

/-- The address of a page without `#`, and with at most one question mark. -/
structure PlainAddress (href path query : Bytes) : Prop where
  path_ok : 63 ∉ path ∧ 38 ∉ path ∧ 35 ∉ path
  query_ok : 63 ∉ query ∧ 35 ∉ query
  parts : href = path ++ 63 :: query ∨ href = path ∧ query = []

end Appdash.Spec
