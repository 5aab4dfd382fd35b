import Verif.Spec.Position

/- The two players are treated alike: turning the board round and exchanging the colours. -/

namespace ShogiCore

/-- A square seen from the other side. -/
def Square.opposite (s t : Square) : Prop := s.val.toNat + t.val.toNat = 82

/-- What the other player would call the contents of a square. -/
def swapColor : Res (Option Piece) → Res (Option Piece)
  | .ok (some x) => .ok (some (if x.val.toNat < 16 then ⟨x.val + 16⟩ else ⟨x.val - 16⟩))
  | r => r

/-- The same move, seen from the other side. -/
inductive Move.Mirror : Move → Move → Prop
  | normal {s t s' t' pr} : s.opposite s' → t.opposite t' → Move.Mirror (.Normal s t pr) (.Normal s' t' pr)
  | drop {k c t t'} : t.opposite t' →
      Move.Mirror (.Drop (Piece.mk' k c) t) (.Drop (Piece.mk' k c.other) t')

/-- The same sequence of moves, seen from the other side. -/
inductive Moves.Mirror : List Move → List Move → Prop
  | nil : Moves.Mirror [] []
  | cons {m m' l l'} : Move.Mirror m m' → Moves.Mirror l l' → Moves.Mirror (m :: l) (m' :: l')

variable [Profile]

/-- Two positions are the same up to the point of view. -/
structure PartialPosition.Mirror (p p' : PartialPosition) : Prop where
  board : ∀ s s' : Square, s.Valid → s'.Valid → s.opposite s' → p'.piece_at s' = swapColor (p.piece_at s)
  hands : ∀ k c, k.InHand → p'.hand (Piece.mk' k c.other) = p.hand (Piece.mk' k c)
  side : p'.side_to_move = p.side_to_move.other
  ply : p'.get_ply = p.get_ply

end ShogiCore
