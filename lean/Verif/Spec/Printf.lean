import Verif.Model.Printf

/-!
# What a database reads

SQL statements may begin with comments.  In some dialects (MySQL, SQLite) a comment ends at the first `*/`, in others (PostgreSQL)
comments nest.
-/

namespace Appdash.Spec

/-- What follows the comment in which the text begins. -/
def commentEnd : Bytes → Option Bytes
  | 42 :: 47 :: r => some r
  | _ :: r => commentEnd r
  | [] => none

/-- The same where comments nest; `d` more comments are open. -/
def nestedEnd : Nat → Bytes → Option Bytes
  | 0, 42 :: 47 :: r => some r
  | d + 1, 42 :: 47 :: r => nestedEnd d r
  | d, 47 :: 42 :: r => nestedEnd (d + 1) r
  | d, _ :: r => nestedEnd d r
  | _, [] => none

/-- The statement that a database executes when it is sent `text`, which begins with a comment: what is left after the comment.
`none` if the comment does not end. -/
def statement (nested : Bool) : Bytes → Option Bytes
  | 47 :: 42 :: r => if nested then nestedEnd 0 r else commentEnd r
  | text => some text

/-- The words that a comment without stars at the start of `text` consists of. -/
def commentWords : Bytes → Option Bytes
  | 47 :: 42 :: r => some (r.takeWhile (· ≠ 42))
  | _ => none

/-- Part of a format without verbs, which cannot end a comment. -/
def Harmless (s : Bytes) : Prop := 37 ∉ s ∧ 42 ∉ s

end Appdash.Spec
