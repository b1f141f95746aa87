import Verif.Model.Json
import Verif.Model.Strconv

/-!
# JSON as text

Package `encoding/json` is part of Go's standard library; the definitions here model its text syntax: what
`json.MarshalIndent` and `json.Encoder.Encode` write (traceapp/app.go:183, 191) and what `json.Unmarshal` and
`json.Decoder.Decode` read (traceapp/app.go:120, 305).  Newer versions of Go reject JSON nested deeper than 10000; that is
not modelled.
-/

namespace Appdash

/-! ## Writing -/

/-- The four hexadecimal digits of `\u00xx`. -/
def escapeU (c : UInt8) : Bytes := b!"\\u00" ++ [hexDigitChar (c.toNat / 16), hexDigitChar (c.toNat % 16)]

/-- One byte below 128 inside a string, with HTML escaping (the default).  (Newer versions of Go write `\b` and `\f` for 8 and
12.) -/
def quoteByte (c : UInt8) : Bytes :=
  if c = 34 ∨ c = 92 then [92, c]
  else if c = 10 then b!"\\n"
  else if c = 13 then b!"\\r"
  else if c = 9 then b!"\\t"
  else if c.toNat < 32 ∨ c = 60 ∨ c = 62 ∨ c = 38 then escapeU c
  else [c]

/-- The inside of a string literal: bytes that are not UTF-8 become `�`, U+2028 and U+2029 are escaped.  `n` bounds the
number of steps. -/
def quoteAux : Nat → Bytes → Bytes
  | 0, _ => []
  | _, [] => []
  | n + 1, a :: r =>
    if a.toNat < 128 then quoteByte a ++ quoteAux n r
    else
      match utf8Len (a :: r) with
      | 0 => b!"\\ufffd" ++ quoteAux n r
      | k + 1 =>
        if a :: r.take k = [226, 128, 168] then b!"\\u2028" ++ quoteAux n (r.drop k)
        else if a :: r.take k = [226, 128, 169] then b!"\\u2029" ++ quoteAux n (r.drop k)
        else a :: (r.take k ++ quoteAux n (r.drop k))

/-- A string literal. -/
def quoteString (s : Bytes) : Bytes := 34 :: (quoteAux s.length s ++ [34])

/-- How the parts of a value are set apart: `nl d` follows an opening bracket or a comma at depth `d` and precedes a closing
bracket, `colon` separates a member's name and value. -/
structure Layout where
  nl : Nat → Bytes
  colon : Bytes

/-- `json.Marshal`. -/
def Layout.compact : Layout := ⟨fun _ => [], b!":"⟩

/-- `json.MarshalIndent(v, "", "  ")`. -/
def Layout.indent : Layout := ⟨fun d => 10 :: List.replicate (2 * d) 32, b!": "⟩

mutual
/-- The text of a value at depth `d`.  Numbers that are not integers are not written by appdash; they are written as `0.5`
here. -/
def JVal.print (L : Layout) (d : Nat) : JVal → Bytes
  | .null => b!"null"
  | .bool true => b!"true"
  | .bool false => b!"false"
  | .num (some i) => formatInt i
  | .num none => b!"0.5"
  | .str s => quoteString s
  | .arr [] => b!"[]"
  | .arr (v :: vs) => 91 :: (L.nl (d + 1) ++ JVal.print L (d + 1) v ++ printElems L d vs)
  | .obj [] => b!"{}"
  | .obj ((k, v) :: ms) =>
    123 :: (L.nl (d + 1) ++ quoteString k ++ L.colon ++ JVal.print L (d + 1) v ++ printMembers L d ms)
/-- The elements after the first and the closing bracket. -/
def printElems (L : Layout) (d : Nat) : List JVal → Bytes
  | [] => L.nl d ++ [93]
  | v :: vs => 44 :: (L.nl (d + 1) ++ JVal.print L (d + 1) v ++ printElems L d vs)
/-- The members after the first and the closing bracket. -/
def printMembers (L : Layout) (d : Nat) : List (Bytes × JVal) → Bytes
  | [] => L.nl d ++ [125]
  | (k, v) :: ms =>
    44 :: (L.nl (d + 1) ++ quoteString k ++ L.colon ++ JVal.print L (d + 1) v ++ printMembers L d ms)
end

/-! ## Reading -/

/-- Space, tab, line feed and carriage return. -/
def isWS (c : UInt8) : Bool := decide (c = 32 ∨ c = 9 ∨ c = 10 ∨ c = 13)

/-- Skip white space. -/
def skipWS (s : Bytes) : Bytes := s.dropWhile isWS

/-- The value of a hexadecimal digit of either case. -/
def hexVal (c : UInt8) : Option Nat :=
  if 48 ≤ c.toNat ∧ c.toNat ≤ 57 then some (c.toNat - 48)
  else if 97 ≤ c.toNat ∧ c.toNat ≤ 102 then some (c.toNat - 87)
  else if 65 ≤ c.toNat ∧ c.toNat ≤ 70 then some (c.toNat - 55)
  else none

/-- `getu4` without the `\u`: four hexadecimal digits. -/
def getu4 : Bytes → Option (Nat × Bytes)
  | a :: b :: c :: d :: r =>
    match hexVal a, hexVal b, hexVal c, hexVal d with
    | some a, some b, some c, some d => some (((a * 16 + b) * 16 + c) * 16 + d, r)
    | _, _, _, _ => none
  | _ => none

/-- `utf8.EncodeRune`. -/
def encodeRune (n : Nat) : Bytes :=
  if n < 0x80 then [UInt8.ofNat n]
  else if n < 0x800 then [UInt8.ofNat (0xC0 + n / 64), UInt8.ofNat (0x80 + n % 64)]
  else if n < 0x10000 then [UInt8.ofNat (0xE0 + n / 4096), UInt8.ofNat (0x80 + n / 64 % 64), UInt8.ofNat (0x80 + n % 64)]
  else [UInt8.ofNat (0xF0 + n / 262144), UInt8.ofNat (0x80 + n / 4096 % 64), UInt8.ofNat (0x80 + n / 64 % 64),
    UInt8.ofNat (0x80 + n % 64)]

/-- The code point of a `\uxxxx` whose digits were `u`, and what is left: two surrogates are combined, a single one becomes
U+FFFD. -/
def surrogate (u : Nat) (r : Bytes) : Nat × Bytes :=
  if 0xD800 ≤ u ∧ u < 0xE000 then
    match r with
    | 92 :: 117 :: r' =>
      match getu4 r' with
      | some (w, r'') =>
        if u < 0xDC00 ∧ 0xDC00 ≤ w ∧ w < 0xE000 then ((u - 0xD800) * 1024 + (w - 0xDC00) + 0x10000, r'') else (0xFFFD, r)
      | none => (0xFFFD, r)
    | _ => (0xFFFD, r)
  else (u, r)

/-- The escapes of one character. -/
def escapeChar (c : UInt8) : Option UInt8 :=
  if c = 34 ∨ c = 92 ∨ c = 47 then some c
  else if c = 98 then some 8
  else if c = 102 then some 12
  else if c = 110 then some 10
  else if c = 114 then some 13
  else if c = 116 then some 9
  else none

/-- A string literal after its opening quote: its value and what is left.  `n` bounds the number of steps. -/
def parseStr : Nat → Bytes → Option (Bytes × Bytes)
  | 0, _ => none
  | _, [] => none
  | n + 1, c :: r =>
    if c = 34 then some ([], r)
    else if c = 92 then
      match r with
      | [] => none
      | e :: r =>
        if e = 117 then
          match getu4 r with
          | none => none
          | some (u, r) =>
            match parseStr n (surrogate u r).2 with
            | none => none
            | some (s, rest) => some (encodeRune (surrogate u r).1 ++ s, rest)
        else
          match escapeChar e with
          | none => none
          | some b =>
            match parseStr n r with
            | none => none
            | some (s, rest) => some (b :: s, rest)
    else if c.toNat < 32 then none
    else
      match utf8Len (c :: r) with
      | 0 =>
        match parseStr n r with
        | none => none
        | some (s, rest) => some (239 :: 191 :: 189 :: s, rest)
      | k + 1 =>
        match parseStr n (r.drop k) with
        | none => none
        | some (s, rest) => some (c :: (r.take k ++ s), rest)

/-- A decimal digit. -/
def isDigitByte (c : UInt8) : Bool := decide (48 ≤ c.toNat ∧ c.toNat ≤ 57)

/-- The digits at the start, and what is left. -/
def digits (s : Bytes) : Bytes × Bytes := (s.takeWhile isDigitByte, s.dropWhile isDigitByte)

/-- The fraction of a number: whether there is one and what is left; `none` if there is no digit after the point. -/
def parseFrac : Bytes → Option (Bool × Bytes)
  | 46 :: r => if (digits r).1 = [] then none else some (true, (digits r).2)
  | s => some (false, s)

/-- The exponent of a number, likewise. -/
def parseExp : Bytes → Option (Bool × Bytes)
  | c :: r =>
    if c = 101 ∨ c = 69 then
      let r := match r with
        | d :: r' => if d = 43 ∨ d = 45 then r' else d :: r'
        | [] => []
      if (digits r).1 = [] then none else some (true, (digits r).2)
    else some (false, c :: r)
  | [] => some (false, [])

/-- A number without its sign.  Leading zeros are not allowed.  A number with a fraction or an exponent cannot be decoded into
an integer, nor can `-0` be decoded into an unsigned one. -/
def parseNumber (neg : Bool) (s : Bytes) : Option (JVal × Bytes) :=
  let ip := match s with
    | 48 :: r => ([48], r)
    | s => digits s
  if ip.1 = [] then none
  else
    match parseFrac ip.2 with
    | none => none
    | some (f, r) =>
      match parseExp r with
      | none => none
      | some (e, r) =>
        if f || e then some (.num none, r)
        else
          match parseDigits 0 ip.1 with
          | none => none
          | some n =>
            if neg then (if n = 0 then some (.num none, r) else some (.num (some (-(n : Int))), r))
            else some (.num (some n), r)

mutual
/-- A value, and what is left after it.  `n` bounds the number of steps. -/
def parseVal : Nat → Bytes → Option (JVal × Bytes)
  | 0, _ => none
  | n + 1, s =>
    match skipWS s with
    | [] => none
    | c :: r =>
      if c = 34 then
        match parseStr (r.length + 1) r with
        | none => none
        | some (t, r) => some (.str t, r)
      else if c = 91 then
        match skipWS r with
        | 93 :: r => some (.arr [], r)
        | r =>
          match parseElems n r with
          | none => none
          | some (l, r) => some (.arr l, r)
      else if c = 123 then
        match skipWS r with
        | 125 :: r => some (.obj [], r)
        | r =>
          match parseMembers n r with
          | none => none
          | some (l, r) => some (.obj l, r)
      else if c = 45 then parseNumber true r
      else if isDigitByte c then parseNumber false (c :: r)
      else if b!"null".isPrefixOf (c :: r) then some (.null, (c :: r).drop 4)
      else if b!"true".isPrefixOf (c :: r) then some (.bool true, (c :: r).drop 4)
      else if b!"false".isPrefixOf (c :: r) then some (.bool false, (c :: r).drop 5)
      else none
/-- The elements of an array, after its opening bracket or a comma. -/
def parseElems : Nat → Bytes → Option (List JVal × Bytes)
  | 0, _ => none
  | n + 1, s =>
    match parseVal n s with
    | none => none
    | some (v, r) =>
      match skipWS r with
      | 93 :: r => some ([v], r)
      | 44 :: r =>
        match parseElems n r with
        | none => none
        | some (l, r) => some (v :: l, r)
      | _ => none
/-- The members of an object, after its opening bracket or a comma. -/
def parseMembers : Nat → Bytes → Option (List (Bytes × JVal) × Bytes)
  | 0, _ => none
  | n + 1, s =>
    match skipWS s with
    | 34 :: r =>
      match parseStr (r.length + 1) r with
      | none => none
      | some (k, r) =>
        match skipWS r with
        | 58 :: r =>
          match parseVal n r with
          | none => none
          | some (v, r) =>
            match skipWS r with
            | 125 :: r => some ([(k, v)], r)
            | 44 :: r =>
              match parseMembers n r with
              | none => none
              | some (l, r) => some ((k, v) :: l, r)
            | _ => none
        | _ => none
    | _ => none
end

/-- The first value of a text: what `json.Decoder.Decode` reads. -/
def parseFirst (s : Bytes) : Option JVal := (parseVal (s.length + 1) s).map Prod.fst

/-- The value of a text that holds nothing else: what `json.Unmarshal` reads. -/
def parseJSON (s : Bytes) : Option JVal :=
  match parseVal (s.length + 1) s with
  | none => none
  | some (v, r) => if skipWS r = [] then some v else none

/-! ## Traces -/

/-- `Annotation` (span.go:169-177), with the key as the program has it. -/
def annotationJSON (a : Annotation) : JVal :=
  .obj [(b!"Key", .str a.key),
    (b!"Value", match a.value with
      | none => .null
      | some v => .str (b64Encode v))]

mutual
/-- A `*Trace`; like `encodeTrace`, but before the strings are turned into UTF-8, which is done by `quoteString`. -/
def traceJSON (nils : SpanID → Bool × Bool) : Tree → JVal
  | .node s ts => .obj [(b!"ID", encodeSpanID s.id),
      (b!"Annotations", encodeSlice (nils s.id).1 (s.annotations.map annotationJSON)),
      (b!"Sub", encodeSlice (nils s.id).2 (tracesJSON nils ts))]
/-- The elements of a `[]*Trace`. -/
def tracesJSON (nils : SpanID → Bool × Bool) : List Tree → List JVal
  | [] => []
  | t :: ts => traceJSON nils t :: tracesJSON nils ts
end

/-- traceapp/app.go:183 `json.MarshalIndent([]*appdash.Trace{trace}, "", "  ")`: the text of the exported trace. -/
def exportText (nils : SpanID → Bool × Bool) (tr : Tree) : Bytes := JVal.print .indent 0 (.arr [traceJSON nils tr])

/-- traceapp/app.go:191 `json.NewEncoder(gz).Encode(trace)`: the text that is compressed into the permalink. -/
def linkText (nils : SpanID → Bool × Bool) (tr : Tree) : Bytes := JVal.print .compact 0 (traceJSON nils tr) ++ [10]

/-- traceapp/app.go:295-310 `App.serveTraceUpload`, given the request body. -/
def serveUploadBody (ms : MemStore) (body : Bytes) : MemStore × UploadResult :=
  match parseJSON body with
  | none => (ms, .badJSON)
  | some v => serveTraceUpload ms v

end Appdash
