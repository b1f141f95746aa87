import Verif.Spec.Dashboard
import Verif.Properties.JsonText
import Verif.Properties.Pages

/-! # The dashboard: helper lemmas -/

namespace Appdash

open Spec

set_option maxRecDepth 10000

theorem joinWith_comma (l : List Bytes) : joinWith b!"," l = commaJoin l := by
  induction l with
  | nil => rfl
  | cons s ss ih =>
    cases ss with
    | nil => rfl
    | cons t ts =>
      simp only [joinWith, commaJoin] at ih ⊢
      rw [ih]
      simp

theorem toText_plain (i : ID) : ∀ c ∈ i.toText, PlainURL c := by
  intro c h
  have := toText_lower _ _ h
  unfold Spec.IsLowerHex at this
  clear h
  revert this
  exact byte_cases (fun c => (48 ≤ c.toNat ∧ c.toNat ≤ 57 ∨ 97 ≤ c.toNat ∧ c.toNat ≤ 102) → PlainURL c) (by decide) c

theorem commaJoin_plain (ids : List ID) : ∀ c ∈ commaJoin (ids.map ID.toText), PlainURL c := by
  induction ids with
  | nil => intro c h; cases h
  | cons i ids ih =>
    cases ids with
    | nil => exact toText_plain i
    | cons j js =>
      intro c h
      simp only [List.map_cons, commaJoin, List.mem_append, List.mem_cons] at h
      rcases h with h | rfl | h
      · exact toText_plain i c h
      · decide
      · exact ih c (by simpa using h)

theorem slowestURL_eq (ids : List ID) :
    slowestURL ids = b!"/traces" ++ 63 :: (b!"show" ++ 61 :: commaJoin (ids.map ID.toText)) := by
  rw [slowestURL, joinWith_comma]
  rfl

theorem commaJoin_ascii (ids : List ID) : ∀ c ∈ commaJoin (ids.map ID.toText), c.toNat < 128 := by
  induction ids with
  | nil => intro c h; cases h
  | cons i ids ih =>
    cases ids with
    | nil => exact toText_ascii i
    | cons j js =>
      intro c h
      simp only [List.map_cons, commaJoin, List.mem_append, List.mem_cons] at h
      rcases h with h | rfl | h
      · exact toText_ascii i c h
      · decide
      · exact ih c (by simpa using h)

theorem row_clean (r : AggResult) : (rowJSON r).clean = rowOf r (slowestURL r.slowest) := by
  have hu : cleanUTF8 (slowestURL r.slowest) = slowestURL r.slowest := by
    apply cleanUTF8_ascii
    rw [slowestURL_eq]
    intro c h
    rcases List.mem_append.1 h with h | h
    · exact (show ∀ c ∈ b!"/traces", c.toNat < 128 by decide) c h
    rcases List.mem_cons.1 h with rfl | h
    · decide
    rcases List.mem_append.1 h with h | h
    · exact (show ∀ c ∈ b!"show", c.toNat < 128 by decide) c h
    rcases List.mem_cons.1 h with rfl | h
    · decide
    exact commaJoin_ascii _ c h
  simp only [rowJSON, JVal.clean, JVal.cleanMembers, hu, rowOf, milliNs]
  rfl

theorem cleanList_map {α : Type} (f : α → JVal) (l : List α) : JVal.cleanList (l.map f) = l.map fun x => (f x).clean := by
  induction l with
  | nil => rfl
  | cons x l ih => simp only [List.map_cons, JVal.cleanList, ih]

end Appdash
