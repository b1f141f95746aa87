import Verif.Prelude

/-! # Specification: names in the paths of requests -/

namespace Appdash

/-- A name in the path of a request: not empty, without slashes, and neither `.` nor `..`. -/
def PathName (x : Bytes) : Prop := x ≠ [] ∧ (47 : UInt8) ∉ x ∧ x ≠ b!"." ∧ x ≠ b!".."

end Appdash
