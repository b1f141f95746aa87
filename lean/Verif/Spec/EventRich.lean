import Verif.Model.ReflectRich
import Verif.Spec.Event

/-!
# Specification of recording and reading events of any type
-/

namespace Appdash

/-- A nil pointer can be reached in a value: through pointers, fields of structs, elements of maps and sequences, but not through
interfaces and not into a value behind a pointer with a `String` method; or an interface holds a nil pointer with a `String` method. -/
inductive NilInside : RType → RVal → Prop where
  | here (t : RType) : NilInside (.ptr t) .nil
  | deref (t : RType) (v : RVal) (plain : t.hasString = false) (inside : NilInside t v) : NilInside (.ptr t) (.ptr v)
  | held (t : RType) (stringer : t.hasString = true) : NilInside .iface (.iface (.ptr t) .nil)
  | field {ns : List Bytes} {ts : List RType} {vs : List RVal} (i : Nat) {n : Bytes} {t : RType} {v : RVal} (name : ns[i]? = some n)
      (type : ts[i]? = some t) (val : vs[i]? = some v) (inside : NilInside t v) : NilInside (.struct ns ts) (.struct vs)
  | entry (sk : Bool) {e : RType} {ks : List Bytes} {vs : List RVal} (i : Nat) {k : Bytes} {v : RVal} (key : ks[i]? = some k)
      (val : vs[i]? = some v) (inside : NilInside e v) : NilInside (.map sk e) (.map ks vs)
  | element {e : RType} {vs : List RVal} {v : RVal} (mem : v ∈ vs) (inside : NilInside e v) : NilInside (.slice e) (.seq vs)
  | component (n : Nat) {e : RType} {vs : List RVal} {v : RVal} (mem : v ∈ vs) (inside : NilInside e v) :
      NilInside (.array n e) (.seq vs)

mutual

/-- The types of `Verif.Model.Reflect` among all types. -/
def GType.rich : GType → RType
  | .scalar d s => .scalar d s
  | .struct ns ts => .struct ns (richTypes ts)
  | .map e => .map true (.scalar false e)
  | .slice e => .slice (.scalar false e)
  | .array n e => .array n (.scalar false e)

/-- The same for lists of types. -/
def richTypes : List GType → List RType
  | [] => []
  | t :: ts => t.rich :: richTypes ts

end

mutual

/-- The values of `Verif.Model.Reflect` among all values. -/
def GVal.rich : GVal → RVal
  | .scalar s => .scalar s
  | .struct vs => .struct (richVals vs)
  | .map m => .map m.keys (m.map fun e => .scalar e.2)
  | .seq xs => .seq (xs.map .scalar)

/-- The same for lists of values. -/
def richVals : List GVal → List RVal
  | [] => []
  | v :: vs => v.rich :: richVals vs

end

/-- Fields that can be read back: a scalar, or a pointer to a scalar that is not a `time.Time` or `time.Duration`. -/
inductive PlainField : RType → RVal → Prop where
  | value {s : ScalarTy} {x : Scalar} (h : s.holds x = true) : PlainField (.scalar false s) (.scalar x)
  | pointer {s : ScalarTy} {x : Scalar} (h : s.holds x = true) (time : s ≠ .time) (duration : s ≠ .duration) :
      PlainField (.ptr (.scalar false s)) (.ptr (.scalar x))

/-- Types without interfaces, sequences, defined scalars, pointers to anything but scalars, and maps of anything but strings to scalars or
pointers to scalars. -/
inductive Steady : RType → Prop where
  | scalar (s : ScalarTy) : Steady (.scalar false s)
  | opaque : Steady .opaque
  | pointer (s : ScalarTy) : Steady (.ptr (.scalar false s))
  | struct (ns : List Bytes) (ts : List RType) (fields : ∀ t ∈ ts, Steady t) : Steady (.struct ns ts)
  | named (n : Bytes) (ns : List Bytes) (ts : List RType) (fields : ∀ t ∈ ts, Steady t) : Steady (.named n (.struct ns ts))
  | map (s : ScalarTy) : Steady (.map true (.scalar false s))
  | pointers (s : ScalarTy) : Steady (.map true (.ptr (.scalar false s)))

/-- Equality of Go values: pointers are equal when what they point to is, and maps when they have the same keys and the same values. -/
inductive RVal.Same : RVal → RVal → Prop
  | scalar (s : Scalar) : Same (.scalar s) (.scalar s)
  | nil : Same .nil .nil
  | ptr (v w : RVal) (target : Same v w) : Same (.ptr v) (.ptr w)
  | struct (vs ws : List RVal) (len : vs.length = ws.length)
      (fields : ∀ (i : Nat) (v w : RVal), vs[i]? = some v → ws[i]? = some w → Same v w) : Same (.struct vs) (.struct ws)
  | map (ks ls : List Bytes) (vs ws : List RVal) (keys : ∀ k, k ∈ ks ↔ k ∈ ls)
      (vals : ∀ (k : Bytes) (v w : RVal), AMap.get (ks.zip vs) k = some v → AMap.get (ls.zip ws) k = some w → Same v w) :
      Same (.map ks vs) (.map ls ws)
  | seq (vs ws : List RVal) (len : vs.length = ws.length)
      (elems : ∀ (i : Nat) (v w : RVal), vs[i]? = some v → ws[i]? = some w → Same v w) : Same (.seq vs) (.seq ws)

/-- The value contains a scalar, a pointer, a non-empty map or a non-empty sequence. -/
inductive RVal.Leafy : RVal → Prop
  | scalar (s : Scalar) : Leafy (.scalar s)
  | ptr (v : RVal) : Leafy (.ptr v)
  | map {ks : List Bytes} {vs : List RVal} (h : ks ≠ []) : Leafy (.map ks vs)
  | seq {vs : List RVal} (h : vs ≠ []) : Leafy (.seq vs)
  | struct {v : RVal} {vs : List RVal} (mem : v ∈ vs) (leaf : Leafy v) : Leafy (.struct vs)

/-- Fields that can be read back, at any depth: values without pointers as in C39; pointers to scalars other than a `time.Time` or
`time.Duration`; maps and non-empty sequences of such pointers; and structs of such fields whose names are apart, in which every struct has
something to show. -/
inductive Survives : RType → RVal → Prop where
  | value {t : GType} {v : GVal} (plain : t.plain = true) (holds : t.holds v = true) (full : v.full = true) : Survives t.rich v.rich
  | pointer {s : ScalarTy} {x : Scalar} (h : s.holds x = true) (time : s ≠ .time) (duration : s ≠ .duration) :
      Survives (.ptr (.scalar false s)) (.ptr (.scalar x))
  | pointers {s : ScalarTy} {m : AMap Bytes Scalar} (h : (GType.map s).holds (.map m) = true) (time : s ≠ .time) (duration : s ≠ .duration) :
      Survives (.map true (.ptr (.scalar false s))) (.map m.keys (m.map fun e => .ptr (.scalar e.2)))
  | slice {s : ScalarTy} {xs : List Scalar} (h : (GType.slice s).holds (.seq xs) = true) (full : xs ≠ []) (time : s ≠ .time)
      (duration : s ≠ .duration) : Survives (.slice (.ptr (.scalar false s))) (.seq (xs.map fun x => .ptr (.scalar x)))
  | array {n : Nat} {s : ScalarTy} {xs : List Scalar} (h : (GType.array n s).holds (.seq xs) = true) (full : xs ≠ []) (time : s ≠ .time)
      (duration : s ≠ .duration) : Survives (.array n (.ptr (.scalar false s))) (.seq (xs.map fun x => .ptr (.scalar x)))
  | struct {ns : List Bytes} {ts : List RType} {vs : List RVal} (names : ns.length = ts.length) (len : ts.length = vs.length)
      (apart : namesApart ns = true)
      (fields : ∀ (i : Nat) (t : RType) (v : RVal), ts[i]? = some t → vs[i]? = some v → Survives t v)
      (leafy : ∀ ws, RVal.struct ws ∈ vs → (RVal.struct ws).Leafy) : Survives (.struct ns ts) (.struct vs)

end Appdash
