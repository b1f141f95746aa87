import Verif.Spec.JsonText

/-!
# The query strings of URLs

The form `application/x-www-form-urlencoded`: settings `key=value` separated by `&`, in which `+` is a space and `%41` the byte 0x41.
-/

namespace Appdash.Spec

/-- A text of a query string and what it stands for. -/
inductive QueryText : Bytes → Bytes → Prop where
  | nil : QueryText [] []
  | space {t p : Bytes} : QueryText t p → QueryText (43 :: t) (32 :: p)
  | code {a b c : UInt8} {x y : Nat} {t p : Bytes} : HexDigit a x → HexDigit b y → c.toNat = 16 * x + y → QueryText t p →
    QueryText (37 :: a :: b :: t) (c :: p)
  | same {c : UInt8} {t p : Bytes} : c ≠ 37 → c ≠ 43 → QueryText t p → QueryText (c :: t) (c :: p)

/-- The text sets the key to the value.  A text without `=` sets a key to the empty value; one with a semicolon sets nothing. -/
def Sets (s key value : Bytes) : Prop :=
  s ≠ [] ∧ 59 ∉ s ∧ ∃ k v, (s = k ++ 61 :: v ∨ s = k ∧ v = []) ∧ 61 ∉ k ∧ QueryText k key ∧ QueryText v value

/-- The first value that the query string gives to the key; empty if there is none. -/
def FirstSetting (query key value : Bytes) : Prop :=
  ∃ settings : List Bytes, (∀ s ∈ settings, 38 ∉ s) ∧ settings ≠ [] ∧ query = List.intercalate [38] settings ∧
    ((∃ before s after, settings = before ++ s :: after ∧ Sets s key value ∧ ∀ s' ∈ before, ∀ v, ¬ Sets s' key v) ∨
      (value = [] ∧ ∀ s ∈ settings, ∀ v, ¬ Sets s key v))

/-- A URL without host, its path and its query. -/
def URLParts (url path query : Bytes) : Prop := 63 ∉ path ∧ (url = path ++ 63 :: query ∨ url = path ∧ query = [])

end Appdash.Spec
