import Verif.Spec.Text

/- An independent parser for USI move text. -/

namespace ShogiCore

/-- What USI move text denotes: a drop carries no colour. -/
inductive UsiMove where
  | normal (src to : Square) (promote : Bool)
  | drop (k : PieceKind) (to : Square)
  deriving DecidableEq, Repr

/-- A square from a file digit and a rank letter. -/
def parseSquare (f r : U8) : Option Square :=
  if 49 ≤ f.toNat ∧ f.toNat ≤ 57 ∧ 97 ≤ r.toNat ∧ r.toNat ≤ 105 then
    some (Square.at (f.toNat - 48) (r.toNat - 96))
  else none

/-- A kind from its upper-case letter (unpromoted). -/
def parseLetter (b : U8) : Option PieceKind :=
  if b = asciiByte 'P' then some .Pawn
  else if b = asciiByte 'L' then some .Lance
  else if b = asciiByte 'N' then some .Knight
  else if b = asciiByte 'S' then some .Silver
  else if b = asciiByte 'G' then some .Gold
  else if b = asciiByte 'B' then some .Bishop
  else if b = asciiByte 'R' then some .Rook
  else if b = asciiByte 'K' then some .King
  else none

/-- The promoted form named by `+` and a letter. -/
def parsePromoted (b : U8) : Option PieceKind :=
  if b = asciiByte 'P' then some .ProPawn
  else if b = asciiByte 'L' then some .ProLance
  else if b = asciiByte 'N' then some .ProKnight
  else if b = asciiByte 'S' then some .ProSilver
  else if b = asciiByte 'B' then some .ProBishop
  else if b = asciiByte 'R' then some .ProRook
  else none

/-- USI move parser. -/
def parseUsi : List U8 → Option UsiMove
  | [a, b, c, d] =>
    if b = asciiByte '*' then do
      return .drop (← parseLetter a) (← parseSquare c d)
    else do
      return .normal (← parseSquare a b) (← parseSquare c d) false
  | [a, b, c, d, e] =>
    if a = asciiByte '+' then do
      if c = asciiByte '*' then return .drop (← parsePromoted b) (← parseSquare d e)
      else none
    else if e = asciiByte '+' then do
      return .normal (← parseSquare a b) (← parseSquare c d) true
    else none
  | _ => none

/-- Forgetting the colour of a dropped piece. -/
def Move.forget : Move → UsiMove
  | .Normal s t pr => .normal s t pr
  | .Drop p t => .drop (kindOfPiece p) t

end ShogiCore
