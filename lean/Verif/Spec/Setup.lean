import Verif.Spec.Position

/- What the observers of a position can show together. -/

namespace ShogiCore

variable [Profile]

/-- Answers to all questions one can ask a position. -/
structure Setup where
  board : Square → Option Piece
  hands : Color → Hand
  side : Color
  ply : U16
  last : Option Move
  king : Color → Option Square

/-- The position gives these answers. -/
structure PartialPosition.Answers (p : PartialPosition) (S : Setup) : Prop where
  board : ∀ s : Square, s.Valid → p.piece_at s = .ok (S.board s)
  hands : ∀ c, p.hand_of_a_player c = .ok (S.hands c)
  side : p.side_to_move = S.side
  ply : p.get_ply = S.ply
  last : p.get_last_move = .ok S.last
  king : ∀ c, p.king_position c = .ok (S.king c)

/-- Moves that can be a last move: from one square to another, or a drop of a hand piece. -/
def Move.CanBeLast : Move → Prop
  | .Normal s t _ => s.Valid ∧ t.Valid ∧ s ≠ t
  | .Drop x t => t.Valid ∧ ∃ k c, x = Piece.mk' k c ∧ k.InHand

/-- Answers that fit together. -/
structure Setup.Possible (S : Setup) : Prop where
  pieces : ∀ s x, s.Valid → S.board s = some x → x.Valid
  hands : ∀ c, (S.hands c).Valid
  last : ∀ m, S.last = some m → m.CanBeLast
  /-- The move number 0 is only reached by overflow, hence by a move. -/
  ply : S.ply = 0 → S.last ≠ none
  king_valid : ∀ c s, S.king c = some s → s.Valid
  /-- A king on the board has been noticed. -/
  king_seen : ∀ c s, s.Valid → S.board s = some (Piece.mk' .King c) → S.king c ≠ none
  /-- The two kings do not each stand on the square remembered for the other one. -/
  no_swap : ∀ s t, S.king .Black = some s → S.king .White = some t →
    S.board s = some (Piece.mk' .King .White) → S.board t ≠ some (Piece.mk' .King .Black)

end ShogiCore
