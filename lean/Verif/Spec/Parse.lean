import Verif.Spec.Text

/- Independent parsers for numbers and hands. -/

namespace ShogiCore

/-- Is a byte an ASCII digit? -/
def isDigit (b : U8) : Bool := decide (48 ≤ b.toNat) && decide (b.toNat ≤ 57)

/-- Value of a string of digits. -/
def digitsValue (l : List U8) : Nat := l.foldl (fun a b => 10 * a + (b.toNat - 48)) 0

/-- Number parser: non-empty, digits only, no leading zero unless "0". -/
def parseNumber (l : List U8) : Option Nat :=
  match l with
  | [] => none
  | b :: rest =>
    if (b :: rest).all isDigit && (b.toNat != 48 || rest.isEmpty) then some (digitsValue l) else none

/-- Hand letters. -/
def parseHandLetter (b : U8) : Option (PieceKind × Color) :=
  if b = asciiByte 'P' then some (.Pawn, .Black)
  else if b = asciiByte 'L' then some (.Lance, .Black)
  else if b = asciiByte 'N' then some (.Knight, .Black)
  else if b = asciiByte 'S' then some (.Silver, .Black)
  else if b = asciiByte 'G' then some (.Gold, .Black)
  else if b = asciiByte 'B' then some (.Bishop, .Black)
  else if b = asciiByte 'R' then some (.Rook, .Black)
  else if b = asciiByte 'p' then some (.Pawn, .White)
  else if b = asciiByte 'l' then some (.Lance, .White)
  else if b = asciiByte 'n' then some (.Knight, .White)
  else if b = asciiByte 's' then some (.Silver, .White)
  else if b = asciiByte 'g' then some (.Gold, .White)
  else if b = asciiByte 'b' then some (.Bishop, .White)
  else if b = asciiByte 'r' then some (.Rook, .White)
  else none

/-- An entry of a hand text: so many pieces of a kind and colour. -/
abbrev HandItem := Nat × PieceKind × Color

/-- Scanner: `acc` is the number read so far, if any. -/
def parseHandItems : Option Nat → List U8 → Option (List HandItem)
  | none, [] => some []
  | some _, [] => none
  | acc, b :: rest =>
    if isDigit b then parseHandItems (some (10 * acc.getD 0 + (b.toNat - 48))) rest
    else
      match parseHandLetter b with
      | none => none
      | some kc => (parseHandItems none rest).map ((acc.getD 1, kc) :: ·)

/-- Hand field parser. -/
def parseHands (l : List U8) : Option (List HandItem) :=
  if l = ascii "-" then some [] else parseHandItems none l

/-- How many of a kind and colour the entries denote. -/
def itemCount (l : List HandItem) (k : PieceKind) (c : Color) : Nat :=
  ((l.filter fun i => i.2 = (k, c)).map (·.1)).sum

/-- The canonical order of one player's entries. -/
def handOrder : List PieceKind := [.Rook, .Bishop, .Gold, .Silver, .Knight, .Lance, .Pawn]

end ShogiCore
