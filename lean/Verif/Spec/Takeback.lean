import Verif.Spec.Edit

/- A program that explores lines of play in place: it makes moves and takes them back with the
setters. -/

namespace ShogiCore

variable [Profile]

/-- What the program notes before it makes a move: the calls that will take it back. -/
def PartialPosition.undo (p : PartialPosition) : Move → Res (List Edit)
  | .Normal s t _ => do
    let x ← p.piece_at s
    let y ← p.piece_at t
    let h ← p.hand_of_a_player p.side_to_move
    return [.piece t y, .piece s x, .hand p.side_to_move h, .side p.side_to_move, .ply p.get_ply]
  | .Drop _ t => do
    let h ← p.hand_of_a_player p.side_to_move
    return [.piece t none, .hand p.side_to_move h, .side p.side_to_move, .ply p.get_ply]

/-- Positions that can be told apart by their last move at most. -/
structure PartialPosition.AlikeButLast (p q : PartialPosition) : Prop where
  board : ∀ s : Square, s.Valid → p.piece_at s = q.piece_at s
  hands : ∀ c, p.hand_of_a_player c = q.hand_of_a_player c
  side : p.side_to_move = q.side_to_move
  ply : p.get_ply = q.get_ply
  king : ∀ c, p.king_position c = q.king_position c

/-- Every king on the board stands where `king_position` says (so there is at most one of each
colour). -/
def PartialPosition.Tracked (p : PartialPosition) : Prop :=
  ∀ c (s : Square), s.Valid → p.piece_at s = .ok (some (Piece.mk' .King c)) →
    p.king_position c = .ok (some s)

/-- The positions the program goes through, with the line it is in and the calls noted for taking
it back, latest first. -/
inductive Search (p₀ : PartialPosition) : List Move → List (List Edit) → PartialPosition → Prop
  | start : Search p₀ [] [] p₀
  | make {l us p q m u} : Search p₀ l us p → m.Valid → p.get_ply ≠ 0 → p.undo m = .ok u →
      p.make_move m = .ok (q, some ()) → Search p₀ (l ++ [m]) (u :: us) q
  | reject {l us p q m} : Search p₀ l us p → m.Valid → p.make_move m = .ok (q, none) →
      Search p₀ l us q
  | back {l us p q m u} : Search p₀ (l ++ [m]) (u :: us) p → runEdits p u = .ok q →
      Search p₀ l us q

end ShogiCore
