import Verif.Model.ID

/-!
# Model of `span.go`: span IDs and annotations
-/

namespace Appdash

/-- span.go:14-25 `type SpanID struct`. -/
structure SpanID where
  trace : ID
  span : ID
  parent : ID
deriving DecidableEq, Repr, Inhabited

/-- span.go:105 `SpanIDDelimiter = "/"`. -/
def spanIDDelimiter : UInt8 := 47

/-- span.go:58-60 `SpanID.IsRoot`. -/
def SpanID.isRoot (id : SpanID) : Bool := id.parent == 0

/-- span.go:35-47 `SpanID.String`. -/
def SpanID.toText (id : SpanID) : Bytes :=
  if id.parent = 0 then id.trace.toText ++ [spanIDDelimiter] ++ id.span.toText
  else id.trace.toText ++ [spanIDDelimiter] ++ id.span.toText ++ [spanIDDelimiter] ++ id.parent.toText

/-- `strings.Split(s, sep)` for a one-byte separator (called from span.go:110). -/
def splitOn (sep : UInt8) : Bytes → List Bytes
  | [] => [[]]
  | c :: s =>
    if c = sep then [] :: splitOn sep s
    else
      match splitOn sep s with
      | [] => [[c]]
      | p :: ps => (c :: p) :: ps

/-- span.go:29 `ErrBadSpanID` is the only error `ParseSpanID` returns. -/
inductive SpanIDError where
  | badSpanID
deriving DecidableEq, Repr

/-- span.go:109-135 `ParseSpanID`. -/
def parseSpanID (s : Bytes) : Except SpanIDError SpanID :=
  match splitOn spanIDDelimiter s with
  | [p0, p1] =>
    match parseID p0 with
    | .error _ => .error .badSpanID
    | .ok root =>
      match parseID p1 with
      | .error _ => .error .badSpanID
      | .ok id => .ok { trace := root, span := id, parent := 0 }
  | [p0, p1, p2] =>
    match parseID p0 with
    | .error _ => .error .badSpanID
    | .ok root =>
      match parseID p1 with
      | .error _ => .error .badSpanID
      | .ok id =>
        match parseID p2 with
        | .error _ => .error .badSpanID
        | .ok i => .ok { trace := root, span := id, parent := i }
  | _ => .error .badSpanID

/-- span.go:169-177 `type Annotation struct`.  `value = none` is a nil byte slice, `some []` an empty one. -/
structure Annotation where
  key : Bytes
  value : Option Bytes
deriving DecidableEq, Repr, Inhabited

/-- `string(a.Value)`: nil and empty both convert to the empty string. -/
def Annotation.valueString (a : Annotation) : Bytes := a.value.getD []

/-- span.go:138-143 `type Span struct`. -/
structure Span where
  id : SpanID
  annotations : List Annotation
deriving DecidableEq, Repr, Inhabited

/-- span.go:156-163 `Span.Name`: the value of the first annotation whose key is `Name`. -/
def annotationsName : List Annotation → Bytes
  | [] => []
  | a :: as => if a.key = b!"Name" then a.valueString else annotationsName as

/-- event.go:39 `SchemaPrefix = "_schema:"`. -/
def schemaPrefix : Bytes := b!"_schema:"

/-- span.go:206-214 `Annotations.schemas`. -/
def schemas : List Annotation → List Bytes
  | [] => []
  | a :: as =>
    if schemaPrefix.isPrefixOf a.key then a.key.drop schemaPrefix.length :: schemas as else schemas as

/-- span.go:231-237 `Annotations.StringMap`: later annotations overwrite earlier ones. -/
def stringMap (as : List Annotation) : AMap Bytes Bytes :=
  as.foldl (fun m a => AMap.set m a.key a.valueString) []

end Appdash
