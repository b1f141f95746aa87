import Verif.Model.Span
import Verif.Model.Bits
import Verif.Model.Mutex

/-!
# Model of ID generation: `generateID` (id.go), `NewRootSpanID`, `NewSpanID` (span.go) and `Recorder.Child`

The block cipher is a parameter `E : Bytes → Bytes` (AES with the random key).
-/

namespace Appdash

/-- id.go:81-87: the package variables `ctr`, `n`, `b`. -/
structure GenState where
  ctr : Bytes
  n : Nat
  b : Bytes
deriving DecidableEq, Repr

/-- id.go:89-102 `init`: `ctr` is the second half of the 32 random bytes. -/
def GenState.init (ctr : Bytes) : GenState := { ctr := ctr, n := 16, b := List.replicate 16 0 }

/-- id.go:62-67, the loop `for i := k-1; i >= 0; i-- { ctr[i]++; if ctr[i] != 0 { break } }`. -/
def incLoop : Nat → Bytes → Bytes
  | 0, c => c
  | i + 1, c =>
    let c' := c.set i (c.getD i 0 + 1)
    if c'.getD i 0 ≠ 0 then c' else incLoop i c'

/-- id.go:70: `*(*ID)(unsafe.Pointer(&b[n]))` on a little-endian machine. -/
def loadID (b : Bytes) (n : Nat) : ID := UInt64.ofNat (leNat ((b.drop n).take 8))

/-- id.go:58-74 `generateID`, without the locking. -/
def generateID (E : Bytes → Bytes) (s : GenState) : ID × GenState :=
  let s := if s.n = 16 then { ctr := incLoop 16 s.ctr, n := 0, b := E s.ctr } else s
  (loadID s.b s.n, { s with n := s.n + 8 })

/-- Program points of `generateID` between `m.Lock()` and `m.Unlock()`. -/
inductive GenPC where
  /-- id.go:60 `if n == aes.BlockSize` -/
  | check
  /-- id.go:61 `c.Encrypt(b, ctr)` -/
  | encrypt
  /-- id.go:62-67, about to look at index `k - 1` -/
  | inc (k : Nat)
  /-- id.go:68 `n = 0` -/
  | reset
  /-- id.go:70 -/
  | load
  /-- id.go:71 `n += idSize` and `m.Unlock()` -/
  | bump (id : ID)

/-- id.go:58-74 `generateID` statement by statement: every access to the shared variables is one step. -/
inductive GenStep (E : Bytes → Bytes) : GenPC → GenState → GenState → GenPC ⊕ ID → Prop
  | checkYes (s : GenState) : s.n = 16 → GenStep E .check s s (.inl .encrypt)
  | checkNo (s : GenState) : s.n ≠ 16 → GenStep E .check s s (.inl .load)
  | encrypt (s : GenState) : GenStep E .encrypt s { s with b := E s.ctr } (.inl (.inc 16))
  | incEnd (s : GenState) : GenStep E (.inc 0) s s (.inl .reset)
  | incBreak (s : GenState) (i : Nat) : s.ctr.getD i 0 + 1 ≠ 0 →
      GenStep E (.inc (i + 1)) s { s with ctr := s.ctr.set i (s.ctr.getD i 0 + 1) } (.inl .reset)
  | incNext (s : GenState) (i : Nat) : s.ctr.getD i 0 + 1 = 0 →
      GenStep E (.inc (i + 1)) s { s with ctr := s.ctr.set i (s.ctr.getD i 0 + 1) } (.inl (.inc i))
  | reset (s : GenState) : GenStep E .reset s { s with n := 0 } (.inl .load)
  | load (s : GenState) : GenStep E .load s s (.inl (.bump (loadID s.b s.n)))
  | bump (s : GenState) (id : ID) : GenStep E (.bump id) s { s with n := s.n + 8 } (.inr id)

/-- `generateID` as the body of a mutex-protected operation (it takes no arguments). -/
def genMachine (E : Bytes → Bytes) : Mutex.Machine GenState Unit ID :=
  { L := GenPC, start := fun _ => .check, step := GenStep E }

/-- span.go:84-89 `NewRootSpanID`, given the two IDs returned by `generateID`. -/
def newRootSpanID (g1 g2 : ID) : SpanID := { trace := g1, span := g2, parent := 0 }

/-- span.go:94-100 `NewSpanID`, given the ID returned by `generateID`. -/
def newSpanID (parent : SpanID) (g : ID) : SpanID := { trace := parent.trace, span := g, parent := parent.span }

/-- Ways to obtain a new span ID: span.go:84-89 `NewRootSpanID()`, or span.go:94-100 `NewSpanID(p)` and
recorder.go:46-48 `Recorder.Child` for the `k`-th span ID obtained so far. -/
inductive DeriveOp where
  | root
  | child (k : Nat)
deriving DecidableEq, Repr

/-- One such call.  The state is the number of `generateID` calls made so far and the span IDs obtained so far;
`src i` is the result of the `i`-th call of `generateID`.  A `child k` of a span that does not exist is impossible in Go
and is skipped. -/
def deriveStep (src : Nat → ID) (st : Nat × List SpanID) : DeriveOp → Nat × List SpanID
  | .root => (st.1 + 2, st.2 ++ [newRootSpanID (src st.1) (src (st.1 + 1))])
  | .child k =>
    match st.2[k]? with
    | some p => (st.1 + 1, st.2 ++ [newSpanID p (src st.1)])
    | none => st

/-- The span IDs obtained by a sequence of calls. -/
def deriveAll (src : Nat → ID) (ops : List DeriveOp) : List SpanID := (ops.foldl (deriveStep src) (0, [])).2

end Appdash
