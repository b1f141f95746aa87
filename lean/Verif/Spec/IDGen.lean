import Verif.Model.IDGen
import Verif.Spec.Bits

/-! # Specification vocabulary for ID generation -/

namespace Appdash.Spec

/-- `E` behaves like a block cipher on 16-byte blocks: it maps blocks to blocks and is injective on them. -/
def BlockCipher (E : Bytes → Bytes) : Prop :=
  (∀ x, x.length = 16 → (E x).length = 16) ∧
  ∀ x y, x.length = 16 → y.length = 16 → E x = E y → x = y

/-- The 16-byte big-endian block holding the number `v` modulo `2^128`. -/
def counterBlock (v : Nat) : Bytes := (lowFirst 16 v).reverse

/-- The `i`-th 64-bit chunk of the counter-mode key stream of cipher `E` started at counter block `c0`: the first
(`i` even) or second (`i` odd) eight bytes of the encryption of counter `c0 + i / 2`. -/
def keystreamChunk (E : Bytes → Bytes) (c0 : Bytes) (i : Nat) : Bytes :=
  ((E (counterBlock (lowFirstValue c0.reverse + i / 2))).drop (8 * (i % 2))).take 8

/-- The number stored in eight bytes by a little-endian machine. -/
def littleEndian (s : Bytes) : ID := UInt64.ofNat (lowFirstValue s)

/-- Every `child k` refers to a span obtained earlier. -/
def WellFormed (ops : List DeriveOp) : Prop := ∀ i k, ops[i]? = some (DeriveOp.child k) → k < i

/-- The `i`-th span was derived, in any number of steps, from the root created by the `r`-th call. -/
inductive DescendsFrom (ops : List DeriveOp) : Nat → Nat → Prop
  | root {i : Nat} : ops[i]? = some DeriveOp.root → DescendsFrom ops i i
  | child {i k r : Nat} : ops[i]? = some (DeriveOp.child k) → DescendsFrom ops k r → DescendsFrom ops i r

end Appdash.Spec
