import Verif.Model.Http
import Verif.Model.Base64
import Verif.Model.Strconv

/-!
# Model of `traceapp/handler.go`, `traceapp/httputil.go` and basic authentication in `cmd/appdash/serve_cmd.go`
-/

namespace Appdash

/-- The response writer of net/http with its header: the header map, what has been sent (status and header as they were
when the first of `WriteHeader` and `Write` was called), and the body. -/
structure WebWriter where
  header : Header
  sent : Option (Int × Header)
  body : Bytes
deriving DecidableEq, Repr

/-- net/http `checkWriteHeaderCode`: `WriteHeader` panics for other numbers. -/
def validStatus (code : Int) : Bool := decide (100 ≤ code ∧ code ≤ 999)

/-- net/http `bodyAllowedForStatus`. -/
def bodyAllowed (code : Int) : Bool := decide (200 ≤ code ∧ code ≠ 204 ∧ code ≠ 304)

namespace WebWriter

/-- A new writer; an outer handler may have set headers. -/
def new (h : Header) : WebWriter := ⟨h, none, []⟩

/-- `WriteHeader`; `none` is a panic.  (Informational statuses are treated as final.) -/
def writeHeader (w : WebWriter) (code : Int) : Option WebWriter :=
  match w.sent with
  | some _ => some w
  | none => if validStatus code then some { w with sent := some (code, w.header) } else none

/-- `Write`: sends status 200 if nothing was sent; drops the data if the status does not allow a body. -/
def write (w : WebWriter) (b : Bytes) : WebWriter :=
  let s := w.sent.getD (200, w.header)
  { w with sent := some s, body := if bodyAllowed s.1 then w.body ++ b else w.body }

/-- What the client receives when the handler has returned: status, header and body. -/
def received (w : WebWriter) : Int × Header × Bytes :=
  let s := w.sent.getD (200, w.header)
  (s.1, s.2, w.body)

end WebWriter

/-- `http.Error`. -/
def httpError (w : WebWriter) (msg : Bytes) (code : Int) : Option WebWriter :=
  let w := { w with header := w.header.put b!"Content-Type" b!"text/plain; charset=utf-8" }
  let w := { w with header := w.header.put b!"X-Content-Type-Options" b!"nosniff" }
  match w.writeHeader code with
  | none => none
  | some w => some (w.write (msg ++ [10]))

/-! ## traceapp/httputil.go -/

/-- traceapp/httputil.go:15-19 `responseBuffer`; `header = none` is a nil map. -/
structure ResponseBuffer where
  buf : Bytes
  status : Int
  header : Option Header
deriving DecidableEq, Repr

/-- A call of a handler on its response writer. -/
inductive PageOp where
  | write (b : Bytes)
  | writeHeader (code : Int)
  /-- `Header()`, and whatever the handler then does to the map -/
  | editHeader (f : Header → Header)

/-- traceapp/httputil.go:21-34 `Write`, `WriteHeader` and `Header`. -/
def ResponseBuffer.step (rb : ResponseBuffer) : PageOp → ResponseBuffer
  | .write b => { rb with buf := rb.buf ++ b }
  | .writeHeader code => { rb with status := code }
  | .editHeader f => { rb with header := some (f (rb.header.getD [])) }

/-- Decimal text of a length (`strconv.Itoa`). -/
def itoa (n : Nat) : Bytes := formatInt n

/-- traceapp/httputil.go:41-43: the loop over the buffered header. -/
def copyHeader : List (Bytes × List Bytes) → Header → Header
  | [], h => h
  | (k, v) :: es, h => copyHeader es (AMap.set h k v)

/-- traceapp/httputil.go:40-56 `WriteTo`, given an order in which the loop visits the header.  The writer afterwards, and
whether the call returned (`true`) or panicked (`false`, an invalid status). -/
def ResponseBuffer.writeTo (rb : ResponseBuffer) (order : List (Bytes × List Bytes)) (w : WebWriter) : WebWriter × Bool :=
  let w := { w with header := copyHeader order w.header }
  let w := if 0 < rb.buf.length then { w with header := w.header.put b!"Content-Length" (itoa rb.buf.length) } else w
  if rb.status ≠ 0 then
    match w.writeHeader rb.status with
    | none => (w, false)
    | some w => (if 0 < rb.buf.length then w.write rb.buf else w, true)
  else (if 0 < rb.buf.length then w.write rb.buf else w, true)

/-! ## traceapp/handler.go -/

/-- How a handler ends; `panic` carries the message built from the panic value and the stack. -/
inductive PageEnd where
  | ok
  | error (msg : Bytes)
  | panic (msg : Bytes)
deriving DecidableEq, Repr

/-- What a handler does. -/
structure Page where
  ops : List PageOp
  result : PageEnd

/-- traceapp/handler.go:31-38 `handleError`.  (The log line is left out.) -/
def handleError (w : WebWriter) (msg : Bytes) : Option WebWriter :=
  httpError { w with header := w.header.put b!"cache-control" b!"no-cache, max-age=0" } msg 500

/-- The buffer after the handler's calls. -/
def Page.buffer (p : Page) : ResponseBuffer := p.ops.foldl ResponseBuffer.step ⟨[], 0, none⟩

/-- traceapp/handler.go:13-29 `handlerFunc.ServeHTTP`, as a relation between the handler's behaviour and the writer
afterwards (`none`: the panic leaves `ServeHTTP`).  `statusPanic` is the message of the panic that an invalid status
causes in `WriteTo`. -/
def PageServes (p : Page) (statusPanic : Bytes) (w : WebWriter) (out : Option WebWriter) : Prop :=
  match p.result with
  | .panic msg => out = handleError w msg
  | .error msg => out = handleError w msg
  | .ok => ∃ order : List (Bytes × List Bytes), order.Perm (p.buffer.header.getD []) ∧
      match p.buffer.writeTo order w with
      | (w, true) => out = some w
      | (w, false) => out = handleError w statusPanic

/-! ## cmd/appdash/serve_cmd.go -/

/-- `subtle.ConstantTimeCompare`: the bytes that differ, combined. -/
def constantTimeCompare (x y : Bytes) : Bool :=
  if x.length ≠ y.length then false
  else decide ((x.zip y).foldl (fun v p => v ||| (p.1 ^^^ p.2)) (0 : UInt8) = 0)

/-- cmd/appdash/serve_cmd.go:203-206 `newBasicAuthHandler`: the field `want`. -/
def authWant (user passwd : Bytes) : Bytes := b!"Basic " ++ b64Encode (user ++ b!":" ++ passwd)

/-- cmd/appdash/serve_cmd.go:213-222 `basicAuthHandler.ServeHTTP`: the writer afterwards, and whether the wrapped
handler was called.  The wrapped handler may do anything to the writer. -/
def authServe (want : Bytes) (inner : WebWriter → Option WebWriter) (reqHeader : Header) (w : WebWriter) :
    Option WebWriter × Bool :=
  let authHdr := reqHeader.find b!"authorization"
  if want.length = authHdr.length ∧ constantTimeCompare want authHdr = true then (inner w, true)
  else
    (httpError { w with header := w.header.put b!"WWW-Authenticate" b!"Basic realm=\"appdash\"" } b!"unauthorized" 401,
      false)

/-- The two parts of a string before and after the first colon. -/
def cutColon : Bytes → Option (Bytes × Bytes)
  | [] => none
  | c :: s =>
    if c = 58 then some ([], s)
    else
      match cutColon s with
      | none => none
      | some (a, b) => some (c :: a, b)

/-- cmd/appdash/serve_cmd.go:111-124: the handler used for the option `BasicAuth`.  The outer `none` means that the
program exits with an error; the inner one that no authentication is required. -/
def authConfig (opt : Bytes) : Option (Option Bytes) :=
  if opt = [] then some none
  else
    -- strings.SplitN(opt, ":", 2)
    match cutColon opt with
    | none => none
    | some (user, passwd) => if user = [] ∨ passwd = [] then none else some (some (authWant user passwd))

end Appdash
