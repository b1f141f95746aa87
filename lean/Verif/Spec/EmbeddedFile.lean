import Verif.Model.EmbeddedFile

/-! # Specification: how a file answers reads and seeks -/

namespace Appdash

/-- The position of a file after calls: a seek moves it, and a read moves it by the bytes read. -/
def positionAfter (size : Int) : List FileCall → Int
  | cs => cs.foldl (fun p c => match c with
    | .seek o .start _ => o
    | .seek o .current _ => p + o
    | .seek o .fromEnd _ => size + o
    | .read _ data _ => p + data.length) 0

/-- A right answer to a read at a position: the bytes there, at most `k` of them and at least one if there are any; an error only at the end. -/
def RightRead (content : Bytes) (p : Int) (k : Nat) (data : Bytes) (err : Option FileErr) : Prop :=
  data <+: content.drop p.toNat ∧ data.length ≤ k ∧ (0 < k → p < content.length → data ≠ []) ∧
    (err = none ∨ err = some .eof ∧ content.length ≤ p + data.length)

/-- All reads and seeks among the calls have right answers. -/
def RightCalls (content : Bytes) (cs : List FileCall) : Prop :=
  ∀ pre c post, cs = pre ++ c :: post → match c with
    | .seek o w r => r = positionAfter content.length (pre ++ [.seek o w r])
    | .read k data err => RightRead content (positionAfter content.length pre) k data err

/-- All positions are at least 0 (for others, a file would refuse to seek). -/
def PositionsAtLeast0 (content : Bytes) (cs : List FileCall) : Prop :=
  ∀ pre post, cs = pre ++ post → 0 ≤ positionAfter content.length pre

/-- No read is attempted beyond the end of the file. -/
def ReadsWithin (content : Bytes) (cs : List FileCall) : Prop :=
  ∀ pre k data err post, cs = pre ++ .read k data err :: post → positionAfter content.length pre ≤ content.length

end Appdash
