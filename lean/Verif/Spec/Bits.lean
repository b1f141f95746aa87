import Verif.Prelude

/-! # Numbers as bytes, the low byte first -/

namespace Appdash.Spec

/-- The lowest `n` bytes of a number. -/
def lowFirst (n v : Nat) : Bytes := (List.range n).map fun i => UInt8.ofNat (v / 256 ^ i % 256)

/-- The number that the bytes are. -/
def lowFirstValue (s : Bytes) : Nat := ((List.range s.length).map fun i => (s.getD i 0).toNat * 256 ^ i).sum

end Appdash.Spec
