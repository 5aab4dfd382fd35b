import Verif.Spec.Sfen

/- Reading moves off diagrams, and positions off their texts without the move number. -/

namespace ShogiCore

/-- The square holds a piece of `c`. -/
def ownedBy (c : Color) (o : Option Piece) : Bool :=
  match o with
  | some x => decide (colorOfPiece x = c)
  | none => false

/-- The move of `c` that changes one board into the other, for a reader who sees two diagrams: one
own piece has gone from a square or none has, and one square has a new own piece. -/
def decodeMove (c : Color) (b b' : Square → Option Piece) : Option Move :=
  match allSquares.find? (fun s => ownedBy c (b s) && (b' s).isNone),
      allSquares.find? (fun t => ownedBy c (b' t) && decide (b t ≠ b' t)) with
  | some s, some t => some (.Normal s t (decide (b' t ≠ b s)))
  | none, some t => (b' t).map fun x => .Drop x t
  | _, none => none

/-- A text up to the last space. -/
def beforeLastSpace (l : List U8) : List U8 :=
  ((l.reverse.dropWhile (· ≠ asciiByte ' ')).drop 1).reverse

variable [Profile]

/-- The board as a diagram. -/
def PartialPosition.Diagram (p : PartialPosition) (b : Square → Option Piece) : Prop :=
  ∀ s : Square, s.Valid → p.piece_at s = .ok (b s)

/-- The key of a position in a table for detecting repetitions: its SFEN without the move
number. -/
def PartialPosition.repetitionKey (p : PartialPosition) : Res (List U8) := do
  return beforeLastSpace (← p.to_sfen_owned)

/-- Board, hands and side to move are the same: what counts for repetition. -/
structure PartialPosition.SamePosition (p q : PartialPosition) : Prop where
  board : ∀ s : Square, s.Valid → p.piece_at s = q.piece_at s
  hands : ∀ c, p.hand_of_a_player c = q.hand_of_a_player c
  side : p.side_to_move = q.side_to_move

end ShogiCore
