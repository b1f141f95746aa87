import Verif.Prelude

/-!
# Base64 (`encoding/base64`), used for basic auth, for `[]byte` values in JSON and for permalinks
-/

namespace Appdash

/-- The standard alphabet: digit value to character. -/
def b64Char (v : Nat) : UInt8 :=
  if v < 26 then UInt8.ofNat (65 + v)
  else if v < 52 then UInt8.ofNat (97 + (v - 26))
  else if v < 62 then UInt8.ofNat (48 + (v - 52))
  else if v = 62 then 43 else 47

/-- The inverse of the alphabet. -/
def b64Val (c : UInt8) : Option Nat :=
  if 65 ≤ c.toNat ∧ c.toNat ≤ 90 then some (c.toNat - 65)
  else if 97 ≤ c.toNat ∧ c.toNat ≤ 122 then some (c.toNat - 97 + 26)
  else if 48 ≤ c.toNat ∧ c.toNat ≤ 57 then some (c.toNat - 48 + 52)
  else if c = 43 then some 62
  else if c = 47 then some 63
  else none

/-- `base64.StdEncoding.EncodeToString` (with padding), as used in cmd/appdash/serve_cmd.go:204 and by `encoding/json`
for `Annotation.Value`. -/
def b64Encode : Bytes → Bytes
  | [] => []
  | [a] =>
    let n := a.toNat * 65536
    [b64Char (n / 262144), b64Char (n / 4096 % 64), 61, 61]
  | [a, b] =>
    let n := a.toNat * 65536 + b.toNat * 256
    [b64Char (n / 262144), b64Char (n / 4096 % 64), b64Char (n / 64 % 64), 61]
  | a :: b :: c :: rest =>
    let n := a.toNat * 65536 + b.toNat * 256 + c.toNat
    b64Char (n / 262144) :: b64Char (n / 4096 % 64) :: b64Char (n / 64 % 64) :: b64Char (n % 64) :: b64Encode rest

/-- Decoding of quadruples; padding only at the end. -/
def b64DecodeQuads : Bytes → Option Bytes
  | [] => some []
  | c0 :: c1 :: c2 :: c3 :: rest =>
    match b64Val c0, b64Val c1 with
    | some d0, some d1 =>
      if c2 = 61 then
        if c3 = 61 ∧ rest = [] then some [UInt8.ofNat ((d0 * 262144 + d1 * 4096) / 65536)] else none
      else
        match b64Val c2 with
        | none => none
        | some d2 =>
          if c3 = 61 then
            if rest = [] then
              let n := d0 * 262144 + d1 * 4096 + d2 * 64
              some [UInt8.ofNat (n / 65536), UInt8.ofNat (n / 256 % 256)]
            else none
          else
            match b64Val c3 with
            | none => none
            | some d3 =>
              let n := d0 * 262144 + d1 * 4096 + d2 * 64 + d3
              match b64DecodeQuads rest with
              | none => none
              | some r => some (UInt8.ofNat (n / 65536) :: UInt8.ofNat (n / 256 % 256) :: UInt8.ofNat (n % 256) :: r)
    | _, _ => none
  | _ => none

/-- `base64.StdEncoding.Decode`: line breaks are skipped; trailing bits are not checked. -/
def b64Decode (s : Bytes) : Option Bytes := b64DecodeQuads (s.filter fun c => decide (c ≠ 10 ∧ c ≠ 13))

end Appdash
