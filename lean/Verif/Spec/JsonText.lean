import Verif.Model.JsonText

/-!
# Specification vocabulary for JSON texts
-/

namespace Appdash

mutual
/-- The value with its strings as JSON carries them. -/
def JVal.clean : JVal → JVal
  | .null => .null
  | .bool b => .bool b
  | .num i => .num i
  | .str s => .str (cleanUTF8 s)
  | .arr l => .arr (JVal.cleanList l)
  | .obj l => .obj (JVal.cleanMembers l)
/-- `clean` of every element. -/
def JVal.cleanList : List JVal → List JVal
  | [] => []
  | v :: vs => v.clean :: JVal.cleanList vs
/-- `clean` of every member. -/
def JVal.cleanMembers : List (Bytes × JVal) → List (Bytes × JVal)
  | [] => []
  | (k, v) :: ms => (cleanUTF8 k, v.clean) :: JVal.cleanMembers ms
end

/-- Only white space: spaces, tabs, line feeds and carriage returns. -/
def Blank (w : Bytes) : Prop := ∀ c ∈ w, c = 32 ∨ c = 9 ∨ c = 10 ∨ c = 13

/-- A layout that adds only white space to the compact form. -/
def Layout.Blank (L : Layout) : Prop := (∀ d, Appdash.Blank (L.nl d)) ∧ ∃ w, L.colon = 58 :: w ∧ Appdash.Blank w

/-! ## UTF-8 -/

/-- The bytes of one character in UTF-8, as Lean encodes it. -/
def IsChar (bs : Bytes) : Prop := ∃ ch : Char, bs = String.utf8EncodeChar ch

/-- A string of characters in UTF-8. -/
def ValidUTF8 (s : Bytes) : Prop := ∃ l : List Char, s = l.flatMap String.utf8EncodeChar

/-- No character begins here. -/
def NoChar (s : Bytes) : Prop := ∀ bs r, s = bs ++ r → ¬ IsChar bs

/-- U+FFFD, which stands for what is not a character. -/
def replacement : Bytes := String.utf8EncodeChar (Char.ofNat 0xFFFD)

/-- The second string is the first one with every byte that belongs to no character replaced by U+FFFD. -/
inductive Cleaned : Bytes → Bytes → Prop where
  | nil : Cleaned [] []
  | char {bs s t : Bytes} (hc : IsChar bs) (h : Cleaned s t) : Cleaned (bs ++ s) (bs ++ t)
  | bad {b : UInt8} {s t : Bytes} (hb : NoChar (b :: s)) (h : Cleaned s t) : Cleaned (b :: s) (replacement ++ t)

/-! ## The grammar of JSON (RFC 8259)

As `encoding/json` reads it: strings need not be UTF-8 and may name single surrogates; both become U+FFFD. -/

/-- A hexadecimal digit and its value. -/
def HexDigit (c : UInt8) (x : Nat) : Prop :=
  (x < 10 ∧ c.toNat = 48 + x) ∨ (10 ≤ x ∧ x < 16 ∧ (c.toNat = 97 + (x - 10) ∨ c.toNat = 65 + (x - 10)))

/-- Four hexadecimal digits and their value. -/
def Hex4 (ds : Bytes) (u : Nat) : Prop :=
  ∃ a b c d x y z w, ds = [a, b, c, d] ∧ HexDigit a x ∧ HexDigit b y ∧ HexDigit c z ∧ HexDigit d w ∧
    u = x * 4096 + y * 256 + z * 16 + w

/-- The text between the quotes of a string literal, and the string. -/
inductive StrText : Bytes → Bytes → Prop where
  | nil : StrText [] []
  /-- A character that stands for itself. -/
  | char {c : UInt8} {cs t v : Bytes} (hc : IsChar (c :: cs)) (h1 : c ≠ 34) (h2 : c ≠ 92) (h3 : 32 ≤ c.toNat)
      (h : StrText t v) : StrText (c :: (cs ++ t)) (c :: (cs ++ v))
  /-- A byte that belongs to no character. -/
  | bad {c : UInt8} {t v : Bytes} (hc : NoChar (c :: t)) (h : StrText t v) : StrText (c :: t) (replacement ++ v)
  /-- The escapes of one character. -/
  | esc {e b : UInt8} {t v : Bytes}
      (he : (e, b) ∈ [(34, 34), (92, 92), (47, 47), (98, 8), (102, 12), (110, 10), (114, 13), ((116, 9) : UInt8 × UInt8)])
      (h : StrText t v) : StrText (92 :: e :: t) (b :: v)
  /-- An escaped code point. -/
  | uni {ds t v : Bytes} {u : Nat} (hd : Hex4 ds u) (hu : ¬ (0xD800 ≤ u ∧ u < 0xE000)) (h : StrText t v) :
      StrText (92 :: 117 :: (ds ++ t)) (String.utf8EncodeChar (Char.ofNat u) ++ v)
  /-- A code point above U+FFFF, escaped as two surrogates. -/
  | pair {ds ds' t v : Bytes} {u u' : Nat} (hd : Hex4 ds u) (hd' : Hex4 ds' u') (hu : 0xD800 ≤ u ∧ u < 0xDC00)
      (hu' : 0xDC00 ≤ u' ∧ u' < 0xE000) (h : StrText t v) :
      StrText (92 :: 117 :: (ds ++ 92 :: 117 :: (ds' ++ t)))
        (String.utf8EncodeChar (Char.ofNat (0x10000 + (u - 0xD800) * 0x400 + (u' - 0xDC00))) ++ v)
  /-- An escaped surrogate that is not the first of such two. -/
  | lone {ds t v : Bytes} {u : Nat} (hd : Hex4 ds u) (hu : 0xD800 ≤ u ∧ u < 0xE000)
      (hn : ¬ ∃ ds' t' u', t = 92 :: 117 :: (ds' ++ t') ∧ Hex4 ds' u' ∧ u < 0xDC00 ∧ 0xDC00 ≤ u' ∧ u' < 0xE000) (h : StrText t v) :
      StrText (92 :: 117 :: (ds ++ t)) (replacement ++ v)

/-- Decimal digits. -/
def Decimals (ds : Bytes) : Prop := ∀ c ∈ ds, 48 ≤ c.toNat ∧ c.toNat ≤ 57

/-- The number written with decimal digits. -/
def decimalValue (ds : Bytes) : Nat := ds.foldl (fun n c => n * 10 + (c.toNat - 48)) 0

/-- The text of a number: a sign, digits without leading zero, a fraction, an exponent.  The value is the integer if it is written
as one; `-0` and numbers with a fraction or an exponent are none. -/
def NumText (t : Bytes) (v : Option Int) : Prop :=
  ∃ sign int frac exp : Bytes, t = sign ++ (int ++ (frac ++ exp)) ∧
    (sign = [] ∨ sign = b!"-") ∧
    (int = b!"0" ∨ ∃ d ds, int = d :: ds ∧ d ≠ 48 ∧ Decimals int) ∧
    (frac = [] ∨ ∃ ds, frac = 46 :: ds ∧ ds ≠ [] ∧ Decimals ds) ∧
    (exp = [] ∨ ∃ e s ds, exp = e :: (s ++ ds) ∧ (e = 101 ∨ e = 69) ∧ (s = [] ∨ s = b!"+" ∨ s = b!"-") ∧ ds ≠ [] ∧ Decimals ds) ∧
    v = if frac = [] ∧ exp = [] ∧ ¬ (sign = b!"-" ∧ int = b!"0") then
        some (if sign = b!"-" then -(decimalValue int : Int) else (decimalValue int : Int)) else none

mutual
/-- The texts of a value, without white space around them. -/
inductive JText : Bytes → JVal → Prop where
  | null : JText b!"null" .null
  | true : JText b!"true" (.bool true)
  | false : JText b!"false" (.bool false)
  | num {t : Bytes} {i : Option Int} (h : NumText t i) : JText t (.num i)
  | str {t s : Bytes} (h : StrText t s) : JText (34 :: (t ++ [34])) (.str s)
  | arr0 {w : Bytes} (hw : Blank w) : JText (91 :: (w ++ [93])) (.arr [])
  | arr {t : Bytes} {l : List JVal} (h : JElems t l) : JText (91 :: t) (.arr l)
  | obj0 {w : Bytes} (hw : Blank w) : JText (123 :: (w ++ [125])) (.obj [])
  | obj {t : Bytes} {l : List (Bytes × JVal)} (h : JMembers t l) : JText (123 :: t) (.obj l)
/-- The texts of the elements of an array, with the closing bracket. -/
inductive JElems : Bytes → List JVal → Prop where
  | last {w t w' : Bytes} {v : JVal} (hw : Blank w) (h : JText t v) (hw' : Blank w') : JElems (w ++ (t ++ (w' ++ [93]))) [v]
  | cons {w t w' r : Bytes} {v : JVal} {l : List JVal} (hw : Blank w) (h : JText t v) (hw' : Blank w') (hr : JElems r l) :
      JElems (w ++ (t ++ (w' ++ 44 :: r))) (v :: l)
/-- The texts of the members of an object, with the closing bracket. -/
inductive JMembers : Bytes → List (Bytes × JVal) → Prop where
  | last {w k w1 w2 t w' key : Bytes} {v : JVal} (hw : Blank w) (hk : StrText k key) (h1 : Blank w1) (h2 : Blank w2) (h : JText t v)
      (hw' : Blank w') : JMembers (w ++ 34 :: (k ++ 34 :: (w1 ++ 58 :: (w2 ++ (t ++ (w' ++ [125])))))) [(key, v)]
  | cons {w k w1 w2 t w' key r : Bytes} {v : JVal} {l : List (Bytes × JVal)} (hw : Blank w) (hk : StrText k key) (h1 : Blank w1)
      (h2 : Blank w2) (h : JText t v) (hw' : Blank w') (hr : JMembers r l) :
      JMembers (w ++ 34 :: (k ++ 34 :: (w1 ++ 58 :: (w2 ++ (t ++ (w' ++ 44 :: r)))))) ((key, v) :: l)
end

/-- The texts of a value, possibly with white space around it. -/
def IsJSON (text : Bytes) (v : JVal) : Prop := ∃ w t w', Blank w ∧ Blank w' ∧ JText t v ∧ text = w ++ (t ++ w')

end Appdash
