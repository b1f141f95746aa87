import Verif.Prelude

/-!
# Model of `id.go` (text and JSON forms)
-/

namespace Appdash

/-- id.go:16 `type ID uint64`. -/
abbrev ID := UInt64

/-- `"0123456789abcdef"[d]`, the lowercase digit table used by package fmt for `%x`
(called from id.go:20). Only used with `d < 16`. -/
def hexDigitChar (d : Nat) : UInt8 :=
  if d < 10 then UInt8.ofNat (48 + d) else UInt8.ofNat (87 + d)

/-- The digit loop of fmt's integer formatting, used by id.go:20: emit the low digit while `u >= 16`, then the
last digit.  The fuel `16` used by the caller is exactly the number of hex digits of a 64-bit number. -/
def hexLoop : Nat → Nat → Bytes → Bytes
  | 0, _, acc => acc
  | f + 1, u, acc =>
    if u ≥ 16 then hexLoop f (u / 16) (hexDigitChar (u % 16) :: acc) else hexDigitChar u :: acc

/-- id.go:19-21 `ID.String`: `fmt.Sprintf("%016x", uint64(id))`, i.e. the hex digits left-padded with `0` to
width 16. -/
def ID.toText (id : ID) : Bytes :=
  let ds := hexLoop 16 id.toNat []
  List.replicate (16 - ds.length) 48 ++ ds

/-- The digit classification inside `strconv.ParseUint` (called from id.go:46): decimal digits and letters of
either case have a value, everything else is a syntax error. -/
def digitOf (c : UInt8) : Option UInt64 :=
  if 48 ≤ c.toNat ∧ c.toNat ≤ 57 then some (UInt64.ofNat (c.toNat - 48))
  else if 97 ≤ c.toNat ∧ c.toNat ≤ 122 then some (UInt64.ofNat (c.toNat - 97 + 10))
  else if 65 ≤ c.toNat ∧ c.toNat ≤ 90 then some (UInt64.ofNat (c.toNat - 65 + 10))
  else none

/-- The errors of `strconv.ParseUint`. -/
inductive NumError where
  | syntaxErr
  | rangeErr
deriving DecidableEq, Repr

/-- The loop of `strconv.ParseUint(s, 16, 64)` (called from id.go:46), in 64-bit wrapping arithmetic:
`cutoff = maxUint64/16 + 1 = 2^60`. -/
def parseHexLoop : UInt64 → Bytes → Except NumError UInt64
  | n, [] => .ok n
  | n, c :: s =>
    match digitOf c with
    | none => .error .syntaxErr
    | some d =>
      if d ≥ 16 then .error .syntaxErr
      else if n ≥ 0x1000000000000000 then .error .rangeErr
      else
        let n' := n * 16
        let n1 := n' + d
        if n1 < n' then .error .rangeErr else parseHexLoop n1 s

/-- id.go:45-51 `ParseID`: `strconv.ParseUint(s, 16, 64)`. -/
def parseID (s : Bytes) : Except NumError ID :=
  if s = [] then .error .syntaxErr else parseHexLoop 0 s

/-- A JSON value as far as `encoding/json` distinguishes it when decoding into a Go `string` or `uint64`
(id.go:104-122): a decoded string, an integer literal (any sign, any size), `null`, or any other valid value
(fractional number, bool, object, array).  JSON lexing and string escapes are not modelled. -/
inductive JsonScalar where
  | str (s : Bytes)
  | int (i : Int)
  | null
  | other
deriving DecidableEq, Repr

/-- id.go:104-114 `parseJSONString`: `json.Unmarshal` into a string (which leaves the string empty for `null` and
fails for other kinds), then `ParseID`. -/
def parseJSONString : JsonScalar → Option ID
  | .str s => (parseID s).toOption
  | .null => (parseID []).toOption
  | _ => none

/-- id.go:116-122 `parseJSONInt`: `json.Unmarshal` into a uint64 (`null` leaves it 0; out of range integers
fail). -/
def parseJSONInt : JsonScalar → Option ID
  | .int i => if 0 ≤ i ∧ i < 2 ^ 64 then some (UInt64.ofNat i.toNat) else none
  | .null => some 0
  | _ => none

/-- id.go:24-26 `ID.MarshalJSON`. -/
def ID.marshalJSON (id : ID) : JsonScalar := .str id.toText

/-- id.go:30-42 `ID.UnmarshalJSON`: `none` is the "is not a valid ID" error. -/
def unmarshalJSONID (j : JsonScalar) : Option ID :=
  match parseJSONString j with
  | some i => some i
  | none => parseJSONInt j

end Appdash
