import Verif.Prelude

/-!
# Model of the conversions of package `strconv` that event marshalling calls

`reflect.go` converts scalars with `strconv.FormatBool`, `FormatInt`, `FormatUint`, `Itoa` and back with `ParseBool`,
`ParseInt`, `ParseUint`, `Atoi` (reflect.go:30-54, 114-173, 284).  The package is part of Go's standard library and not of
/repo; the definitions here model its documented behaviour for base 10.  Floating-point conversions are in `Verif.Model.Float`.
-/

namespace Appdash

/-- The byte of a decimal digit. -/
def digitByte (n : Nat) : UInt8 := UInt8.ofNat (48 + n % 10)

/-- The value of a decimal digit. -/
def digitVal? (c : UInt8) : Option Nat :=
  if 48 ≤ c.toNat ∧ c.toNat ≤ 57 then some (c.toNat - 48) else none

/-- The loop of `formatDec`; the first argument bounds the number of digits. -/
def formatDecAux : Nat → Nat → Bytes
  | 0, _ => []
  | fuel + 1, n => if n < 10 then [digitByte n] else formatDecAux fuel (n / 10) ++ [digitByte n]

/-- `strconv.FormatUint(n, 10)` (called from reflect.go:37). -/
def formatDec (n : Nat) : Bytes := formatDecAux (n + 1) n

/-- `strconv.FormatInt(n, 10)` and `strconv.Itoa(n)` (called from reflect.go:35, 54). -/
def formatInt : Int → Bytes
  | .ofNat n => formatDec n
  | .negSucc n => 45 :: formatDec (n + 1)

/-- The digit loop of `strconv.ParseUint(s, 10, 64)`, without the range check. -/
def parseDigits : Nat → Bytes → Option Nat
  | acc, [] => some acc
  | acc, c :: s =>
    match digitVal? c with
    | none => none
    | some d => parseDigits (acc * 10 + d) s

/-- `strconv.ParseUint(s, 10, 64)` (called from reflect.go:154).  `none` stands for both of its errors. -/
def parseUintDec (s : Bytes) : Option Nat :=
  if s = [] then none
  else
    match parseDigits 0 s with
    | none => none
    | some n => if n < 2 ^ 64 then some n else none

/-- `strconv.ParseInt(s, 10, 64)` and `strconv.Atoi(s)` on a 64-bit machine (called from reflect.go:133, 284).  `none` stands
for both of their errors. -/
def parseIntDec (s : Bytes) : Option Int :=
  match s with
  | [] => none
  | c :: r =>
    if c = 45 then
      match parseUintDec r with
      | none => none
      | some n => if n ≤ 2 ^ 63 then some (-(n : Int)) else none
    else
      match parseUintDec (if c = 43 then r else c :: r) with
      | none => none
      | some n => if n < 2 ^ 63 then some (n : Int) else none

/-- `strconv.FormatBool` (called from reflect.go:31). -/
def formatBool : Bool → Bytes
  | true => b!"true"
  | false => b!"false"

/-- `strconv.ParseBool` (called from reflect.go:115). -/
def parseBool (s : Bytes) : Option Bool :=
  if s ∈ [b!"1", b!"t", b!"T", b!"true", b!"TRUE", b!"True"] then some true
  else if s ∈ [b!"0", b!"f", b!"F", b!"false", b!"FALSE", b!"False"] then some false
  else none

end Appdash
