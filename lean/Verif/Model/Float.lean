import Verif.Model.Strconv

/-!
# Model of the floating-point conversions that event marshalling calls

`reflect.go` writes floating-point fields with `strconv.FormatFloat(x, 'f', -1, 64)` and reads them with `strconv.ParseFloat(s, 32)`
(reflect.go:33, 121); durations go through a `float64` number of milliseconds (reflect.go:18-20, 101-108).  Arithmetic on `float64` and
package `strconv` are not part of /repo; the definitions here model IEEE 754 rounding to nearest, ties to even, and the documented
behaviour of the two functions.  Every finite `float64` is a multiple of 2^-1074, and so is every finite `float32`; magnitudes are counted
in this unit.
-/

namespace Appdash

/-- A `float64`; the magnitude `k` of a finite one stands for `k / 2^1074`. -/
inductive GoFloat where
  | nan
  | inf (neg : Bool)
  | fin (neg : Bool) (k : Nat)
deriving DecidableEq, Repr

/-- `num / den`, rounded to the nearest integer, ties to even. -/
def rne (num den : Nat) : Nat :=
  if 2 * (num % den) < den then num / den
  else if den < 2 * (num % den) then num / den + 1
  else num / den + num / den % 2

/-- `num / den` (in units), rounded to a multiple of a power of two of which at most `p` bits are left, and at least `2^lo`. -/
def roundTo (p lo num den : Nat) : Nat :=
  rne num (den * 2 ^ max lo ((num / den).log2 + 1 - p)) * 2 ^ max lo ((num / den).log2 + 1 - p)

/-- Rounding to `float64`: 53 bits, multiples of 2^-1074. -/
def round64 (num den : Nat) : Nat := roundTo 53 0 num den

/-- Rounding to `float32`: 24 bits, multiples of 2^-149. -/
def round32 (num den : Nat) : Nat := roundTo 24 925 num den

/-- One, in units of 2^-1074. -/
def unitsOne : Nat := 2 ^ 1074

/-- `n`, written with `f` digits. -/
def padDec : Nat → Nat → Bytes
  | 0, _ => []
  | f + 1, n => padDec f (n / 10) ++ [digitByte n]

/-- The decimal numeral of `d / 10^f` with `f` digits after the point. -/
def decText (d f : Nat) : Bytes := if f = 0 then formatDec d else formatDec (d / 10 ^ f) ++ 46 :: padDec f (d % 10 ^ f)

/-- Remove zeros at the end of the digits after the point. -/
def trimDec (d : Nat) : Nat → Nat × Nat
  | 0 => (d, 0)
  | f + 1 => if d % 10 = 0 then trimDec (d / 10) f else (d, f + 1)

/-- The position of the first digit of `k / 2^1074`, counted from the point to the left. -/
def decExponent (k : Nat) : Int :=
  if unitsOne ≤ k then (formatDec (k / unitsOne)).length
  else -(((List.range 400).find? fun z => decide (unitsOne ≤ k * 10 ^ (z + 1))).getD 0 : Nat)

/-- The two numbers of `n` decimal digits around `k / 2^1074`, the nearer one first, as digits and number of digits after the point. -/
def decCandidates (k n : Nat) : List (Nat × Nat) :=
  let s : Int := n - decExponent k
  let num := k * 10 ^ s.toNat
  let den := unitsOne * 10 ^ (-s).toNat
  let near := rne num den
  let other := if near = num / den then num / den + 1 else num / den
  [near, other].map fun d => trimDec (d * 10 ^ (-s).toNat) s.toNat

/-- The shortest decimal number that is rounded to `k / 2^1074`.  17 digits always suffice; the exact decimal expansion is never needed. -/
def shortest (k : Nat) : Nat × Nat :=
  (((List.range 17).flatMap fun n => decCandidates k (n + 1)).find? fun c => decide (round64 (c.1 * unitsOne) (10 ^ c.2) = k)).getD
    (k * 5 ^ 1074, 1074)

/-- `strconv.FormatFloat(x, 'f', -1, 64)` (called from reflect.go:20, 33). -/
def formatFloat : GoFloat → Bytes
  | .nan => b!"NaN"
  | .inf neg => if neg then b!"-Inf" else b!"+Inf"
  | .fin neg k => (if neg then [45] else []) ++ decText (shortest k).1 (shortest k).2

/-- An unsigned decimal numeral: all its digits, and how many are after the point. -/
def parseDecimal (s : Bytes) : Option (Nat × Nat) :=
  match s.dropWhile (· ≠ 46) with
  | [] => if s = [] then none else (parseDigits 0 s).map fun d => (d, 0)
  | _ :: fp =>
    if s = [46] then none else (parseDigits 0 (s.takeWhile (· ≠ 46) ++ fp)).map fun d => (d, fp.length)

/-- An ASCII letter in lower case. -/
def lowerASCII (c : UInt8) : UInt8 := if 65 ≤ c ∧ c ≤ 90 then c + 32 else c

/-- The numerals of infinity and not-a-number. -/
def parseSpecial (s : Bytes) : Option GoFloat :=
  let l := s.map lowerASCII
  if l = b!"nan" then some .nan
  else if l ∈ [b!"inf", b!"+inf", b!"infinity", b!"+infinity"] then some (.inf false)
  else if l ∈ [b!"-inf", b!"-infinity"] then some (.inf true)
  else none

/-- The exponent of a numeral, after the letter: an optional sign and digits.  Go stops counting at 10000, which makes no difference
but for numerals of thousands of digits. -/
def parseExponent (s : Bytes) : Option Int :=
  if s.head? = some 45 then (if s.drop 1 = [] then none else (parseDigits 0 (s.drop 1)).map fun (n : Nat) => -(n : Int))
  else if s.head? = some 43 then (if s.drop 1 = [] then none else (parseDigits 0 (s.drop 1)).map fun (n : Nat) => (n : Int))
  else if s = [] then none else (parseDigits 0 s).map fun (n : Nat) => (n : Int)

/-- An unsigned numeral: all digits of its mantissa, how many of them are after the point, and its exponent. -/
def parseNumeral (s : Bytes) : Option (Nat × Nat × Int) :=
  match s.dropWhile (fun c => c ≠ 101 ∧ c ≠ 69) with
  | [] => (parseDecimal s).map fun p => (p.1, p.2, 0)
  | _ :: x =>
    match parseDecimal (s.takeWhile (fun c => c ≠ 101 ∧ c ≠ 69)), parseExponent x with
    | some (d, f), some e => some (d, f, e)
    | _, _ => none

/-- `strconv.ParseFloat(s, 64)` and, with `narrow`, `strconv.ParseFloat(s, 32)` (called from reflect.go:103, 121); `none` is an error.
Hexadecimal numerals and underscores, which later versions of Go read, are not modelled.  Go looks for the special numerals first; no
text is both. -/
def parseFloat (narrow : Bool) (s : Bytes) : Option GoFloat :=
  let neg := s.head? = some 45
  let digits := if s.head? = some 45 ∨ s.head? = some 43 then s.drop 1 else s
  match parseNumeral digits with
  | none => parseSpecial s
  | some (d, f, e) =>
    let num := d * 10 ^ e.toNat * unitsOne
    let den := 10 ^ (f + (-e).toNat)
    let k := if narrow then round32 num den else round64 num den
    if k < 2 ^ ((if narrow then 128 else 1024) + 1074) then some (.fin neg k) else none

/-- The conversion `float64(i)` of an `int64`. -/
def floatOfInt (i : Int) : GoFloat := .fin (decide (i < 0)) (round64 (i.natAbs * unitsOne) 1)

/-- Division by `float64(time.Millisecond)`. -/
def GoFloat.divMillion : GoFloat → GoFloat
  | .fin neg k => .fin neg (round64 k 1000000)
  | x => x

/-- Multiplication by `float64(time.Millisecond)`. -/
def GoFloat.mulMillion : GoFloat → GoFloat
  | .fin neg k => if round64 (k * 1000000) 1 < 2 ^ (1024 + 1074) then .fin neg (round64 (k * 1000000) 1) else .inf neg
  | x => x

/-- The conversion `time.Duration(x)`: towards zero.  For values outside the range of an `int64` Go leaves the result open; this is the
result on amd64. -/
def GoFloat.toInt64 : GoFloat → Int
  | .fin neg k =>
    if k / unitsOne < 2 ^ 63 then (if neg then -((k / unitsOne : Nat) : Int) else ((k / unitsOne : Nat) : Int)) else -2 ^ 63
  | _ => -2 ^ 63

/-- reflect.go:18-20: the text of a `time.Duration`. -/
def formatDuration (d : Int) : Bytes := formatFloat (floatOfInt d).divMillion

/-- reflect.go:101-108: a `time.Duration` from its text. -/
def parseDuration (s : Bytes) : Option Int := (parseFloat false s).map fun x => x.mulMillion.toInt64

end Appdash
