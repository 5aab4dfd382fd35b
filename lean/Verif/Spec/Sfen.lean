import Verif.Spec.Parse
import Verif.Spec.Position

/- An independent SFEN parser, and the chunks in which a position is written. -/

namespace ShogiCore

/-- Split at every occurrence of a separator. -/
def fields (sep : U8) : List U8 → List (List U8)
  | [] => [[]]
  | b :: rest =>
    if b = sep then [] :: fields sep rest
    else match fields sep rest with
      | [] => [[b]]
      | f :: fs => (b :: f) :: fs

/-- A piece letter without `+`. -/
def parseBoardLetter (b : U8) : Option (PieceKind × Color) :=
  if b = asciiByte 'K' then some (.King, .Black)
  else if b = asciiByte 'k' then some (.King, .White)
  else parseHandLetter b

/-- The promoted kinds. -/
def promotedKind : PieceKind → Option PieceKind
  | .Pawn => some .ProPawn | .Lance => some .ProLance | .Knight => some .ProKnight
  | .Silver => some .ProSilver | .Bishop => some .ProBishop | .Rook => some .ProRook
  | _ => none

/-- A piece letter, preceded by `+` or not. -/
def parseBoardPiece (plus : Bool) (b : U8) : Option (PieceKind × Color) :=
  match parseBoardLetter b with
  | none => none
  | some (k, c) => if plus then (promotedKind k).map (·, c) else some (k, c)

/-- What the rank parser has just read. -/
inductive RankState
  | piece   -- a piece, or nothing yet
  | digit
  | plus
  deriving DecidableEq

/-- Contents of a square. -/
abbrev Cell := Option (PieceKind × Color)

/-- Rank parser.  Strict: a run of vacant squares is one digit 1-9, never followed by another
digit; `+` must be followed by the letter of a promotable piece. -/
def parseRank : RankState → List U8 → Option (List Cell)
  | .plus, [] => none
  | .piece, [] => some []
  | .digit, [] => some []
  | st, b :: rest =>
    if 49 ≤ b.toNat ∧ b.toNat ≤ 57 then
      if st = .piece then
        (parseRank .digit rest).map (List.replicate (b.toNat - 48) none ++ ·)
      else none
    else if b = asciiByte '+' then
      if st = .plus then none else parseRank .plus rest
    else
      match parseBoardPiece (st = .plus) b with
      | none => none
      | some kc => (parseRank .piece rest).map (some kc :: ·)

/-- One rank: exactly nine squares. -/
def parseRank9 (l : List U8) : Option (List Cell) :=
  match parseRank .piece l with
  | some cells => if cells.length = 9 then some cells else none
  | none => none

/-- The parse of all elements of a list, if all of them parse. -/
def parseEach {α : Type} (f : List U8 → Option α) : List (List U8) → Option (List α)
  | [] => some []
  | l :: ls =>
    match f l, parseEach f ls with
    | some a, some as => some (a :: as)
    | _, _ => none

/-- The board: nine ranks separated by `/`, rank 1 first. -/
def parseBoard (l : List U8) : Option (List (List Cell)) :=
  match parseEach parseRank9 (fields (asciiByte '/') l) with
  | some ranks => if ranks.length = 9 then some ranks else none
  | none => none

/-- The side to move. -/
def parseSide (l : List U8) : Option Color :=
  if l = ascii "b" then some .Black else if l = ascii "w" then some .White else none

/-- A parsed SFEN. -/
structure Sfen where
  ranks : List (List Cell)
  side : Color
  hands : List HandItem
  ply : Nat
  deriving DecidableEq

/-- Four fields separated by single spaces. -/
def parseSfen (l : List U8) : Option Sfen :=
  match fields (asciiByte ' ') l with
  | [b, s, h, n] =>
    match parseBoard b, parseSide s, parseHands h, parseNumber n with
    | some ranks, some side, some hands, some ply => some ⟨ranks, side, hands, ply⟩
    | _, _, _, _ => none
  | _ => none

/-- What a parsed SFEN shows on file `f`, rank `r`: files are written from 9 to 1. -/
def Sfen.cell (s : Sfen) (f r : Nat) : Cell :=
  match s.ranks[r - 1]? with
  | some rank => (rank[9 - f]?).getD none
  | none => none

/-- The piece a cell denotes. -/
def Cell.piece (c : Cell) : Option Piece := c.map fun kc => Piece.mk' kc.1 kc.2

/-- Colour of a piece byte. -/
def colorOfPiece (p : Piece) : Color := if p.val.toNat < 16 then .Black else .White

/-- The number of vacant squares, if any. -/
def vacancyChunks (n : Nat) : List (List U8) := if n = 0 then [] else singly (decimal n)

/-- The chunks of a rank whose squares (file 9 first) hold the given pieces, after `n` vacant
squares. -/
def rankChunks : Nat → List (Option Piece) → List (List U8)
  | n, [] => vacancyChunks n
  | n, none :: rest => rankChunks (n + 1) rest
  | n, some x :: rest =>
    vacancyChunks n ++ ([pieceText (kindOfPiece x) (colorOfPiece x)] ++ rankChunks 0 rest)

variable [Profile]

/-- The squares of rank `r`, file 9 first. -/
def PartialPosition.rankCells (p : PartialPosition) (r : Nat) : List (Option Piece) :=
  [9, 8, 7, 6, 5, 4, 3, 2, 1].map fun f =>
    match p.piece_at (Square.at f r) with
    | .ok o => o
    | _ => none

/-- The chunks of a board: ranks separated by `/`. -/
def PartialPosition.boardChunks (p : PartialPosition) : List (List U8) :=
  [1, 2, 3, 4, 5, 6, 7, 8, 9].flatMap fun r =>
    rankChunks 0 (p.rankCells r) ++ (if r < 9 then [ascii "/"] else [])

/-- The chunks of a position, given the two hands. -/
def PartialPosition.sfenChunks (p : PartialPosition) (b w : Hand) : List (List U8) :=
  p.boardChunks ++ ([ascii " "] ++ ([colorText p.side_to_move] ++ ([ascii " "] ++
    (singly (handsText b w) ++ ([ascii " "] ++ singly (decimal p.get_ply.toNat))))))

end ShogiCore
