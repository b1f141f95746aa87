import Verif.Prelude

/-!
# Specification vocabulary: how a browser reads HTML

A small tokenizer after the HTML standard: text and tags, with quoted attribute values and character references.  Simplifications:
a quotation mark anywhere in a tag begins a quoted value; there are no comments; of the character references only those are
known that `html/template` writes, and `&quot;`; carriage returns are not turned into line feeds.
-/

namespace Appdash

/-- A tag (what is between `<` and `>`) or text with its character references resolved. -/
inductive HtmlToken where
  | tag (raw : Bytes)
  | text (s : Bytes)
deriving DecidableEq, Repr

/-- The character references: what follows `&`, and what it stands for. -/
def charRefs : List (Bytes × Bytes) :=
  [(b!"amp;", b!"&"), (b!"lt;", b!"<"), (b!"gt;", b!">"), (b!"quot;", b!"\""), (b!"#34;", b!"\""), (b!"#39;", b!"'"), (b!"#43;", b!"+")]

/-- Resolving character references; `n` bounds the number of steps. -/
def decodeRefsAux : Nat → Bytes → Bytes
  | 0, _ => []
  | _, [] => []
  | n + 1, c :: s =>
    if c = 38 then
      match charRefs.find? fun r => r.1.isPrefixOf s with
      | some r => r.2 ++ decodeRefsAux n (s.drop r.1.length)
      | none => 38 :: decodeRefsAux n s
    else c :: decodeRefsAux n s

/-- Resolving character references. -/
def decodeRefs (s : Bytes) : Bytes := decodeRefsAux s.length s

/-- The states of the tokenizer. -/
inductive HtmlMode where
  | data
  | tag
  | quoted (q : UInt8)
deriving DecidableEq

/-- A tag begins with `<` only before a letter, `/`, `!` or `?`. -/
def opensTag : Bytes → Bool
  | [] => false
  | c :: _ => decide (65 ≤ c.toNat ∧ c.toNat ≤ 90 ∨ 97 ≤ c.toNat ∧ c.toNat ≤ 122 ∨ c = 47 ∨ c = 33 ∨ c = 63)

/-- Text, if there is any. -/
def textToken (s : Bytes) : List HtmlToken := if s = [] then [] else [.text s]

/-- The tokenizer, with the bytes of the current token. -/
def htmlScan : HtmlMode → Bytes → Bytes → List HtmlToken
  | .data, acc, [] => textToken (decodeRefs acc)
  | .tag, _, [] => []
  | .quoted _, _, [] => []
  | .data, acc, c :: s =>
    if c = 60 ∧ opensTag s = true then textToken (decodeRefs acc) ++ htmlScan .tag [] s else htmlScan .data (acc ++ [c]) s
  | .tag, acc, c :: s =>
    if c = 62 then .tag acc :: htmlScan .data [] s
    else if c = 34 ∨ c = 39 then htmlScan (.quoted c) (acc ++ [c]) s
    else htmlScan .tag (acc ++ [c]) s
  | .quoted q, acc, c :: s => if c = q then htmlScan .tag (acc ++ [c]) s else htmlScan (.quoted q) (acc ++ [c]) s

/-- What the browser reads. -/
def htmlTokens (s : Bytes) : List HtmlToken := htmlScan .data [] s

/-- The value of an attribute in a tag: what follows ` name="`, up to the next quotation mark. -/
def tagAttr (name : Bytes) : Bytes → Option Bytes
  | [] => none
  | c :: s =>
    if (32 :: (name ++ b!"=\"")).isPrefixOf (c :: s) = true then
      some (decodeRefs (((c :: s).drop (name.length + 3)).takeWhile fun c => decide (c ≠ 34)))
    else tagAttr name s

/-- The values of an attribute of the tags of a kind, in order. -/
def attrsOf (kind name : Bytes) (ts : List HtmlToken) : List Bytes :=
  ts.filterMap fun t =>
    match t with
    | .tag raw => if (kind ++ b!" ").isPrefixOf raw = true then tagAttr name raw else none
    | .text _ => none

/-- Zero bytes cannot be shown in HTML; they become U+FFFD. -/
def shownBytes (s : Bytes) : Bytes := s.flatMap fun c => if c = 0 then [239, 191, 189] else [c]

/-- The row of a table with a key and a value. -/
def rowTokens (r : Bytes × Bytes) : List HtmlToken :=
  [.tag b!"tr", .tag b!"th"] ++ textToken (shownBytes r.1) ++ [.tag b!"/th", .tag b!"td"] ++ textToken (shownBytes r.2) ++
    [.tag b!"/td", .tag b!"/tr"]

/-- The tokens of a span with this ID, full ID and title, and with a table of these rows if it has annotations. -/
def spanTokens (id fullID title : Bytes) (annotated : Prop) [Decidable annotated] (rows : List (Bytes × Bytes)) : List HtmlToken :=
  [.tag (b!"li class=\"trace\" id=\"span-" ++ id ++ b!"\""), .tag (b!"strong title=\"" ++ fullID ++ b!"\"")] ++
    textToken (shownBytes title) ++ [.tag b!"/strong"] ++
    (if annotated then
      [.tag b!"table class=\"table table-condensed table-striped\""] ++ rows.flatMap rowTokens ++ [.tag b!"/table"] else []) ++
    [.tag b!"/li"]

end Appdash
