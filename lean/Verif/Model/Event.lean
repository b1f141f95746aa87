import Verif.Model.Span
import Verif.Model.Reflect

/-!
# Model of `event.go`: marshalling events to annotations and back
-/

namespace Appdash

/-- The errors of `UnmarshalEvent`: event.go:64-67 `EventSchemaUnmarshalError`, or an error of an event type's own
`MarshalEvent` or `UnmarshalEvent` method. -/
inductive EventErr where
  | schema (found : List Bytes) (target : Bytes)
  | custom (code : Nat)
deriving DecidableEq, Repr

/-- A Go type that implements `Event` (event.go:9-14), with its schema, and with its own `MarshalEvent` and `UnmarshalEvent`
methods (event.go:23-37) if it has them.  If it implements `TimespanEvent` (event.go:173-177), `times` has the positions of the
fields that its `Start` and `End` methods return.  `important` is what its method `Important` (event.go:16-21) returns, if it has
one. -/
structure EventType where
  schema : Bytes
  type : GType
  marshaler : Option (GVal → Except Nat (List Annotation)) := none
  unmarshaler : Option (List Annotation → Except Nat GVal) := none
  times : Option (Nat × Nat) := none
  important : List Bytes := []

/-- The annotation that `MarshalEvent` adds (event.go:49, 57); its value is a nil slice. -/
def schemaMarker (schema : Bytes) : Annotation := ⟨schemaPrefix ++ schema, none⟩

/-- event.go:55: the annotation for a flattened pair. -/
def annotationOf (e : KV) : Annotation := ⟨e.1, some e.2⟩

/-- event.go:42-59 `MarshalEvent`, as a relation between an event and a possible result: the order of the annotations of a
struct's fields and of a map's entries is random in Go, and every order is allowed here. -/
def Marshals (E : EventType) (v : GVal) (r : Except EventErr (List Annotation)) : Prop :=
  match E.marshaler with
  | some f =>
    match f v with
    | .error code => r = .error (.custom code)
    | .ok as => r = .ok (as ++ [schemaMarker E.schema])
  | none => ∃ kvs : List KV, kvs.Perm (flatten E.type [] v) ∧ r = .ok (kvs.map annotationOf ++ [schemaMarker E.schema])

/-- event.go:74-99 `UnmarshalEvent` of `as` into a pointer to `v`.  The result is the event afterwards and the returned error;
`none` is a panic.  The error of `unflattenValue` is ignored (event.go:97). -/
def unmarshalEvent (E : EventType) (as : List Annotation) (v : GVal) : Option (GVal × Option EventErr) :=
  if (schemas as).contains E.schema = false then some (v, some (.schema (schemas as) E.schema))
  else
    match E.unmarshaler with
    | some f =>
      match f as with
      | .error code => some (v, some (.custom code))
      | .ok ev => some (ev, none)
    | none =>
      match unflatten E.type [] v (mapToKVs (stringMap as)) with
      | none => none
      | some (v', _, _) => some (v', none)

/-- event.go:122 `registeredEvents`. -/
abbrev Registry := AMap Bytes EventType

/-- event.go:112-120 `RegisterEvent`; `none` is a panic. -/
def registerEvent (reg : Registry) (E : EventType) : Option Registry :=
  match AMap.get reg E.schema with
  | some _ => none
  | none => if E.schema = [] then none else some (AMap.set reg E.schema E)

/-- event.go:137-148: the loop over the schemas; the accumulator is `*events`.  An event is returned with its schema, which
identifies its type. -/
def unmarshalLoop (reg : Registry) (as : List Annotation) :
    List Bytes → List (Bytes × GVal) → Option (List (Bytes × GVal) × Option EventErr)
  | [], evs => some (evs, none)
  | s :: ss, evs =>
    match AMap.get reg s with
    | none => unmarshalLoop reg as ss evs
    | some E =>
      match unmarshalEvent E as E.type.zero with
      | none => none
      | some (_, some err) => some (evs, some err)
      | some (v, none) => unmarshalLoop reg as ss (evs ++ [(s, v)])

/-- event.go:135-149 `UnmarshalEvents` into an empty list. -/
def unmarshalEvents (reg : Registry) (as : List Annotation) : Option (List (Bytes × GVal) × Option EventErr) :=
  unmarshalLoop reg as (schemas as) []

/-- `string` as a field type. -/
def tString : GType := .scalar false .string
/-- `time.Time` as a field type. -/
def tTime : GType := .scalar false .time
/-- `int` and `int64` as field types. -/
def tInt : GType := .scalar false (.int 64)

/-- event.go:151-154 `SpanNameEvent`. -/
def spanNameEvent : EventType := { schema := b!"name", type := .struct [b!"Name"] [tString] }

/-- event.go:166-170 `msgEvent`. -/
def msgEvent : EventType := { schema := b!"msg", type := .struct [b!"Msg"] [tString] }

/-- event.go:180-186 `timespanEvent`. -/
def timespanEvent : EventType :=
  { schema := b!"timespan", type := .struct [b!"S", b!"E"] [tTime, tTime], times := some (0, 1) }

/-- event.go:190-197 `Timespan`. -/
def timespan : EventType :=
  { schema := b!"Timespan", type := .struct [b!"Span.Start", b!"Span.End"] [tTime, tTime], times := some (0, 1) }

/-- event.go:216-221 `logEvent`. -/
def logEvent : EventType := { schema := b!"log", type := .struct [b!"Msg", b!"Time"] [tString, tTime] }

/-- httptrace/client.go:29-37 `RequestInfo`. -/
def requestInfoType : GType :=
  .struct [b!"Method", b!"URI", b!"Proto", b!"Headers", b!"Host", b!"RemoteAddr", b!"ContentLength"]
    [tString, tString, tString, .map .string, tString, tString, tInt]

/-- httptrace/server.go:28-32 `ResponseInfo`. -/
def responseInfoType : GType :=
  .struct [b!"Headers", b!"ContentLength", b!"StatusCode"] [.map .string, tInt, tInt]

/-- httptrace/client.go:52-75 `ClientEvent`. -/
def clientEvent : EventType :=
  { schema := b!"HTTPClient",
    type := .struct [b!"Client.Request", b!"Client.Response", b!"Client.Send", b!"Client.Recv"]
      [requestInfoType, responseInfoType, tTime, tTime]
    times := some (2, 3)
    important := [b!"Client.Request.Headers.If-Modified-Since", b!"Client.Request.Headers.If-None-Match",
      b!"Client.Response.StatusCode"] }

/-- httptrace/server.go:43-66 `ServerEvent`. -/
def serverEvent : EventType :=
  { schema := b!"HTTPServer",
    type := .struct [b!"Server.Request", b!"Server.Response", b!"Server.Route", b!"Server.User", b!"Server.Recv", b!"Server.Send"]
      [requestInfoType, responseInfoType, tString, tString, tTime, tTime]
    times := some (4, 5)
    important := [b!"Server.Response.StatusCode"] }

/-- sqltrace/sql.go:12-33 `SQLEvent`. -/
def sqlEvent : EventType :=
  { schema := b!"SQL", type := .struct [b!"SQL", b!"Tag", b!"ClientSend", b!"ClientRecv"] [tString, tString, tTime, tTime],
    times := some (2, 3), important := [b!"SQL", b!"Tag"] }

/-- The events that the `init` functions of packages appdash, httptrace and sqltrace register (event.go:124-130,
httptrace/client.go:18, httptrace/server.go:12, sqltrace/sql.go:35). -/
def libraryEvents : List EventType :=
  [spanNameEvent, logEvent, msgEvent, timespanEvent, timespan, clientEvent, serverEvent, sqlEvent]

/-- Registering a list of events. -/
def registerAll : List EventType → Registry → Option Registry
  | [], reg => some reg
  | E :: Es, reg =>
    match registerEvent reg E with
    | none => none
    | some reg => registerAll Es reg

end Appdash
