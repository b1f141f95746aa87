import Verif.Model.JsonText

/-!
# Model of `Trace.String` (trace.go:19-26) and `Span.String` (span.go:145-152)

`nils` says which empty slices are nil.  `json.MarshalIndent` fails for none of these values, so that `String` never panics.
-/

namespace Appdash

/-- trace.go:20-26 `Trace.String`. -/
def Tree.string (nils : SpanID → Bool × Bool) (tr : Tree) : Bytes := JVal.print .indent 0 (traceJSON nils tr)

/-- A `*Span` (span.go:137-143): the field `ID` and the embedded `Annotations`. -/
def spanJSON (isNil : Bool) (s : Span) : JVal :=
  .obj [(b!"ID", encodeSpanID s.id), (b!"Annotations", encodeSlice isNil (s.annotations.map annotationJSON))]

/-- span.go:146-152 `Span.String`. -/
def Span.string (isNil : Bool) (s : Span) : Bytes := JVal.print .indent 0 (spanJSON isNil s)

end Appdash
