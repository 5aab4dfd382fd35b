import Verif.Spec.Position

/- A game record as it is exchanged between programs: the SFEN of the initial position and the
USI text of every move. -/

namespace ShogiCore

variable [Profile]

/-- Two positions agree on board, hands, side to move and move number: on everything an SFEN
writes down. -/
structure PartialPosition.Agree (p q : PartialPosition) : Prop where
  board : ∀ s : Square, s.Valid → p.piece_at s = q.piece_at s
  hands : ∀ k c, k.InHand → p.hand (Piece.mk' k c) = q.hand (Piece.mk' k c)
  side : p.side_to_move = q.side_to_move
  ply : p.get_ply = q.get_ply

/-- The record of a `Position`. -/
def Position.record (Q : Position) : Res (List U8) × List (Res (List U8)) :=
  (Q.initial_position.to_sfen_owned, Q.get_moves.map fun m => to_usi_owned m.to_usi)

/-- What the move takes from its destination. -/
def PartialPosition.takenBy (p : PartialPosition) : Move → Res (Option Piece)
  | .Normal _ t _ => p.piece_at t
  | .Drop _ _ => .ok none

end ShogiCore
