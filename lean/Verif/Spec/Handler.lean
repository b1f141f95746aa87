import Verif.Model.Handler

/-!
# Specification vocabulary for the web handlers
-/

namespace Appdash.Spec

/-- Everything the handler wrote, in order. -/
def pageBody : List PageOp → Bytes
  | [] => []
  | .write b :: ops => b ++ pageBody ops
  | _ :: ops => pageBody ops

/-- The argument of the last `WriteHeader` call, if any; `s` is the one before. -/
def pageStatus (s : Int) : List PageOp → Int
  | [] => s
  | .writeHeader c :: ops => pageStatus c ops
  | _ :: ops => pageStatus s ops

/-- The header map after all of the handler's changes to it, starting from `h`. -/
def pageHeader (h : Header) : List PageOp → Header
  | [] => h
  | .editHeader f :: ops => pageHeader (f h) ops
  | _ :: ops => pageHeader h ops

/-- The response to a request that failed with the given message; `h` are the headers set by outer handlers. -/
def errorResponse (h : Header) (msg : Bytes) : Int × Header × Bytes :=
  (500, ((h.put b!"cache-control" b!"no-cache, max-age=0").put b!"Content-Type" b!"text/plain; charset=utf-8").put
    b!"X-Content-Type-Options" b!"nosniff", msg ++ [10])

/-- The response to a request without the right credentials. -/
def unauthorizedResponse (h : Header) : Int × Header × Bytes :=
  (401, ((h.put b!"WWW-Authenticate" b!"Basic realm=\"appdash\"").put b!"Content-Type" b!"text/plain; charset=utf-8").put
    b!"X-Content-Type-Options" b!"nosniff", b!"unauthorized\n")

end Appdash.Spec
