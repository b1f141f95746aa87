import Verif.Prelude

/-!
# Numbers as bytes

Little- and big-endian readings of byte strings, used by the ID generator and the wire format.
-/

namespace Appdash

/-- The number whose little-endian bytes are `s`. -/
def leNat : Bytes → Nat
  | [] => 0
  | b :: s => b.toNat + 256 * leNat s

/-- The `n` little-endian bytes of `v` (modulo `256 ^ n`). -/
def leBytes : Nat → Nat → Bytes
  | 0, _ => []
  | n + 1, v => UInt8.ofNat (v % 256) :: leBytes n (v / 256)

/-- The number whose big-endian bytes are `s`. -/
def beNat (s : Bytes) : Nat := leNat s.reverse

end Appdash
