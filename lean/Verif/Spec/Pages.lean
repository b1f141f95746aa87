import Verif.Model.Pages
import Verif.Spec.JsonText
import Verif.Spec.Store

/-!
# Specification vocabulary for pages and permalinks
-/

namespace Appdash

/-- What is assumed of the compression library: reading a compressed stream, whatever follows it, gives the data back, and a
checksum has four bytes. -/
structure Flate.Sound (Z : Flate) : Prop where
  inverse : ∀ d rest, Z.inflate (Z.deflate d ++ rest) = (d, some rest)
  crc : ∀ d, (Z.crc d).length = 4

/-- The JSON texts of a list of exported traces: the text may have been laid out and its strings may have been quoted anew. -/
def IsExports (nils : SpanID → Bool × Bool) (trs : List Tree) (text : Bytes) : Prop :=
  IsJSON text (.arr (trs.map (encodeTrace nils)))

/-- The JSON texts of one exported trace. -/
def IsExport (nils : SpanID → Bool × Bool) (tr : Tree) (text : Bytes) : Prop := IsExports nils [tr] text

/-- The base64url text of bytes, without padding (RFC 4648, sections 3.2 and 5): six bits for each character, zero bits at the end. -/
def rawURL64 : Bytes → Bytes
  | [] => []
  | [a] => [urlChar (a.toNat / 4), urlChar (a.toNat % 4 * 16)]
  | [a, b] => [urlChar (a.toNat / 4), urlChar (a.toNat % 4 * 16 + b.toNat / 16), urlChar (b.toNat % 16 * 4)]
  | a :: b :: c :: rest =>
    urlChar (a.toNat / 4) :: urlChar (a.toNat % 4 * 16 + b.toNat / 16) :: urlChar (b.toNat % 16 * 4 + c.toNat / 64) ::
      urlChar (c.toNat % 64) :: rawURL64 rest

/-- Texts joined with commas. -/
def commaJoin : List Bytes → Bytes
  | [] => []
  | [s] => s
  | s :: ss => s ++ 44 :: commaJoin ss

end Appdash
