import Verif.Model.Prelude

/- A reader of the small part of Rust in which the generated files are written. -/

namespace ShogiCore.RustText

/-! ### Tokens -/

/-- Words (identifiers, keywords, numbers), single punctuation characters, and documentation. -/
inductive Tok where
  | word (w : List U8)
  | punct (b : U8)
  | doc (text : List U8)
  deriving DecidableEq, Repr

/-- Letters, digits and `_`. -/
def wordByte (b : U8) : Bool :=
  (48 ≤ b && b ≤ 57) || (65 ≤ b && b ≤ 90) || (97 ≤ b && b ≤ 122) || b == 95

/-- Where the reader is: between tokens, in a word, after a `/`, or in a comment (what was read of
it comes last first). -/
inductive State where
  | between
  | word (w : List U8)
  | slash
  | comment (w : List U8)

/-- A comment that begins with a third slash, but not a fourth, is documentation. -/
def commentToks (w : List U8) : List Tok :=
  match w with
  | 47 :: 47 :: _ => []
  | 47 :: t => [.doc t]
  | _ => []

/-- The first byte of something new. -/
def start (b : U8) (k : State → List Tok) : List Tok :=
  if b = 32 ∨ b = 10 then k .between
  else if wordByte b then k (.word [b])
  else if b = 47 then k .slash
  else .punct b :: k .between

/-- The tokens of a text. -/
def lex : State → List U8 → List Tok
  | .between, [] => []
  | .word w, [] => [.word w.reverse]
  | .slash, [] => [.punct 47]
  | .comment w, [] => commentToks w.reverse
  | .between, b :: t => start b fun s => lex s t
  | .word w, b :: t =>
    if wordByte b then lex (.word (b :: w)) t else .word w.reverse :: start b fun s => lex s t
  | .slash, b :: t =>
    if b = 47 then lex (.comment []) t else .punct 47 :: start b fun s => lex s t
  | .comment w, b :: t =>
    if b = 10 then commentToks w.reverse ++ lex .between t else lex (.comment (b :: w)) t

/-- The tokens of a whole text. -/
def toks (l : List U8) : List Tok := lex .between l

/-! ### Items -/

/-- The initialisers that occur. -/
inductive Init where
  /-- `Piece::new(PieceKind::kind, Color::color)` -/
  | piece (kind color : List U8)
  /-- `unsafe { Square::from_u8_unchecked(n) }` -/
  | square (n : List U8)
  deriving DecidableEq, Repr

/-- `pub const name: type = init;`, with its documentation. -/
structure Const where
  doc : List (List U8)
  name : List U8
  type : List U8
  init : Init
  deriving DecidableEq, Repr

/-- A file: imports, an `impl` block and a public module, both with constants. -/
structure File where
  impl : List U8
  consts : List Const
  module : List U8
  moduleConsts : List Const
  deriving DecidableEq, Repr

/-- These tokens come next. -/
def expect : List Tok → List Tok → Option (List Tok)
  | [], ts => some ts
  | t :: e, u :: ts => if t = u then expect e ts else none
  | _ :: _, [] => none

/-- Some word comes next. -/
def word : List Tok → Option (List U8 × List Tok)
  | .word w :: ts => some (w, ts)
  | _ => none

/-- Documentation that comes next. -/
def docs : List Tok → List (List U8) × List Tok
  | .doc d :: ts => let (ds, ts) := docs ts; (d :: ds, ts)
  | ts => ([], ts)

/-- One initialiser. -/
def init (ts : List Tok) : Option (Init × List Tok) :=
  match expect (toks (ascii "Piece::new(PieceKind::")) ts with
  | some ts => do
    let (k, ts) ← word ts
    let ts ← expect (toks (ascii ", Color::")) ts
    let (c, ts) ← word ts
    let ts ← expect (toks (ascii ")")) ts
    return (.piece k c, ts)
  | none => do
    let ts ← expect (toks (ascii "unsafe { Square::from_u8_unchecked(")) ts
    let (n, ts) ← word ts
    let ts ← expect (toks (ascii ") }")) ts
    return (.square n, ts)

/-- One constant. -/
def const (ts : List Tok) : Option (Const × List Tok) := do
  let (ds, ts) := docs ts
  let ts ← expect (toks (ascii "pub const")) ts
  let (n, ts) ← word ts
  let ts ← expect (toks (ascii ":")) ts
  let (t, ts) ← word ts
  let ts ← expect (toks (ascii "=")) ts
  let (i, ts) ← init ts
  let ts ← expect (toks (ascii ";")) ts
  return (⟨ds, n, t, i⟩, ts)

/-- Constants up to the closing brace; the number bounds how many. -/
def consts : Nat → List Tok → Option (List Const × List Tok)
  | 0, _ => none
  | n + 1, ts =>
    match expect (toks (ascii "}")) ts with
    | some ts => some ([], ts)
    | none => do
      let (c, ts) ← const ts
      let (cs, ts) ← consts n ts
      return (c :: cs, ts)

/-- The rest of an import, after `use`. -/
def skipUse : List Tok → Option (List Tok)
  | .punct 59 :: ts => some ts
  | _ :: ts => skipUse ts
  | [] => none

/-- An import. -/
def use (ts : List Tok) : Option (List Tok) := expect (toks (ascii "use")) ts >>= skipUse

/-- A whole file. -/
def read (l : List U8) : Option File := do
  let n := l.length
  let ts ← use (toks l)
  let ts ← expect (toks (ascii "#[doc(hidden)] impl")) ts
  let (t, ts) ← word ts
  let ts ← expect (toks (ascii "{")) ts
  let (cs, ts) ← consts n ts
  let (_, ts) := docs ts
  let ts ← expect (toks (ascii "pub mod")) ts
  let (m, ts) ← word ts
  let ts ← expect (toks (ascii "{")) ts
  let ts ← use ts
  let (ms, ts) ← consts n ts
  if ts = [] then some ⟨t, cs, m, ms⟩ else none

end ShogiCore.RustText
