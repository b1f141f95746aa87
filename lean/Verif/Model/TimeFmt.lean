import Verif.Model.Strconv

/-!
# Model of `time.Time` as `reflect.go` writes and reads it (layout `time.RFC3339Nano`)

`flattenValue` (reflect.go:14-16) writes a `time.Time` with `Format(time.RFC3339Nano)` and `parseValueToPtr` (reflect.go:95-100)
reads it with `time.Parse`.  A time is represented by the calendar fields and the zone offset it is printed with.  The pair
(instant, offset) and these fields determine each other, so two times with equal fields denote the same instant and print
alike.  A `time.Time` also carries a monotonic clock reading and a zone name, which RFC 3339 text does not contain; they are
not modelled.  `time.Parse` differs between versions of Go: later ones accept a comma before the fraction and fractions longer than nine
digits, of which they ignore the rest, and reject zones beyond 24 hours or 60 minutes; earlier ones read a sign within the numbers of the
zone.  `parseTime` accepts none of these texts but all zones of two numbers of two digits.
-/

namespace Appdash

/-- The printed fields of a `time.Time`; `off` is the zone offset in minutes east of UTC. -/
structure GoTime where
  year : Nat
  month : Nat
  day : Nat
  hour : Nat
  min : Nat
  sec : Nat
  nsec : Nat
  off : Int
deriving DecidableEq, Repr, Inhabited

/-- Leap years of the Gregorian calendar. -/
def isLeap (y : Nat) : Bool := y % 4 == 0 && (y % 100 != 0 || y % 400 == 0)

/-- The number of days of a month. -/
def daysIn (y m : Nat) : Nat :=
  if m = 2 then (if isLeap y then 29 else 28)
  else if m = 4 ∨ m = 6 ∨ m = 9 ∨ m = 11 then 30
  else 31

/-- The range checks of `time.Parse` (called from reflect.go:96) on the fields it reads. -/
def GoTime.inRange (t : GoTime) : Bool :=
  decide (1 ≤ t.month) && decide (t.month ≤ 12) && decide (1 ≤ t.day) && decide (t.day ≤ daysIn t.year t.month) &&
    decide (t.hour < 24) && decide (t.min < 60) && decide (t.sec < 60)

/-- The zero `time.Time`: 1 January of year 1, 00:00:00 UTC. -/
def GoTime.zero : GoTime := ⟨1, 1, 1, 0, 0, 0, 0, 0⟩

/-- Two digits. -/
def pad2 (n : Nat) : Bytes := [digitByte (n / 10), digitByte n]

/-- Four digits. -/
def pad4 (n : Nat) : Bytes := [digitByte (n / 1000), digitByte (n / 100), digitByte (n / 10), digitByte n]

/-- The lowest `k` digits of `n`. -/
def padTo : Nat → Nat → Bytes
  | 0, _ => []
  | k + 1, n => padTo k (n / 10) ++ [digitByte n]

/-- Drop the zeros at the end. -/
def trimZeros (s : Bytes) : Bytes := (s.reverse.dropWhile (· = 48)).reverse

/-- The fraction of a second in layout `.999999999`: trailing zeros are dropped, and the dot with them if nothing is left. -/
def formatFrac (nsec : Nat) : Bytes := if nsec = 0 then [] else 46 :: trimZeros (padTo 9 nsec)

/-- The zone in layout `Z07:00`. -/
def formatZone (off : Int) : Bytes :=
  if off = 0 then b!"Z"
  else (if off < 0 then 45 else 43) :: (pad2 (off.natAbs / 60) ++ 58 :: pad2 (off.natAbs % 60))

/-- `t.Format(time.RFC3339Nano)` (called from reflect.go:16). -/
def formatTime (t : GoTime) : Bytes :=
  pad4 t.year ++ 45 :: (pad2 t.month ++ 45 :: (pad2 t.day ++ 84 :: (pad2 t.hour ++ 58 :: (pad2 t.min ++ 58 ::
    (pad2 t.sec ++ (formatFrac t.nsec ++ formatZone t.off))))))

/-- Read one digit. -/
def readDigit : Bytes → Option (Nat × Bytes)
  | [] => none
  | c :: s => match digitVal? c with
    | none => none
    | some d => some (d, s)

/-- Read exactly `k` digits. -/
def readNum : Nat → Nat → Bytes → Option (Nat × Bytes)
  | 0, acc, s => some (acc, s)
  | k + 1, acc, s =>
    match readDigit s with
    | none => none
    | some (d, s) => readNum k (acc * 10 + d) s

/-- Read one or two digits, for the hour: `getnum` of package time, for a field without a leading zero in the layout. -/
def readHour (s : Bytes) : Option (Nat × Bytes) :=
  match readDigit s with
  | none => none
  | some (d, s) =>
    match readDigit s with
    | none => some (d, s)
    | some (e, s) => some (d * 10 + e, s)

/-- Read the byte `c`. -/
def readByte (c : UInt8) : Bytes → Option Bytes
  | [] => none
  | c' :: s => if c' = c then some s else none

/-- Read a run of digits; the result is its value, its length and the rest. -/
def readDigits : Nat → Nat → Bytes → Nat × Nat × Bytes
  | acc, n, [] => (acc, n, [])
  | acc, n, c :: s =>
    match digitVal? c with
    | none => (acc, n, c :: s)
    | some d => readDigits (acc * 10 + d) (n + 1) s

/-- Read the fraction of a second. -/
def readFrac : Bytes → Option (Nat × Bytes)
  | 46 :: s =>
    let (v, n, r) := readDigits 0 0 s
    if n = 0 ∨ 9 < n then none else some (v * 10 ^ (9 - n), r)
  | s => some (0, s)

/-- Read the zone. -/
def readZone (s : Bytes) : Option (Int × Bytes) :=
  match s with
  | [] => none
  | c :: s =>
    if c = 90 then some (0, s)
    else if c = 43 ∨ c = 45 then do
      let (h, s) ← readNum 2 0 s
      let s ← readByte 58 s
      let (m, s) ← readNum 2 0 s
      some ((if c = 45 then -((h * 60 + m : Nat) : Int) else ((h * 60 + m : Nat) : Int)), s)
    else none

/-- `time.Parse(time.RFC3339Nano, s)` (called from reflect.go:96), for the texts described at the top of this file. -/
def parseTime (s : Bytes) : Option GoTime := do
  let (year, s) ← readNum 4 0 s
  let s ← readByte 45 s
  let (month, s) ← readNum 2 0 s
  let s ← readByte 45 s
  let (day, s) ← readNum 2 0 s
  let s ← readByte 84 s
  let (hour, s) ← readHour s
  let s ← readByte 58 s
  let (min, s) ← readNum 2 0 s
  let s ← readByte 58 s
  let (sec, s) ← readNum 2 0 s
  let (nsec, s) ← readFrac s
  let (off, s) ← readZone s
  let t : GoTime := ⟨year, month, day, hour, min, sec, nsec, off⟩
  if s = [] ∧ t.inRange = true then some t else none

end Appdash
