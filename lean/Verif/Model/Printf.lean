import Verif.Model.Span

/-!
# Model of `SpanID.Format` (span.go:49-55)

`fmt.Sprintf` is part of Go's standard library; it is modelled for arguments that are strings and for formats whose only verbs
are `%s` and `%%`.
-/

namespace Appdash

/-- What `fmt.Sprintf` appends for arguments that no verb has used. -/
def sprintfExtra : List Bytes → Bytes
  | [] => []
  | a :: as => b!"%!(EXTRA string=" ++ a ++ as.flatMap (fun s => b!", string=" ++ s) ++ b!")"

/-- `fmt.Sprintf` (called from span.go:54); `none` is a format with another verb, with a flag or with an explicit index, for which
nothing is said here. -/
def sprintf : Bytes → List Bytes → Option Bytes
  | [], args => some (sprintfExtra args)
  | [37], args => some (b!"%!(NOVERB)" ++ sprintfExtra args)
  | 37 :: v :: f, args =>
    if v = 37 then (sprintf f args).map (37 :: ·)
    else if v = 115 then
      match args with
      | [] => (sprintf f []).map (b!"%!s(MISSING)" ++ ·)
      | a :: args => (sprintf f args).map (a ++ ·)
    else none
  | c :: f, args => (sprintf f args).map (c :: ·)

/-- span.go:52-55 `SpanID.Format`, for arguments that are strings. -/
def SpanID.format (id : SpanID) (s : Bytes) (args : List Bytes) : Option Bytes := sprintf s (id.toText :: args)

end Appdash
