import Verif.Spec.Referee

/- Looking at the board in a mirror, or from the other side of the table: points of view from which the game
has to look the same. -/

namespace ShogiCore

/-- Whether the files are counted from the other end, and whether the ranks are.  The player at the far end
of the ranks is called White, so the second exchanges the names of the players too.  (Both together: the
board is turned round.) -/
structure View where
  files : Bool
  ranks : Bool
  deriving DecidableEq

namespace View

def file (v : View) (f : Nat) : Nat := if v.files then 10 - f else f
def rank (v : View) (r : Nat) : Nat := if v.ranks then 10 - r else r
def color (v : View) (c : Color) : Color := if v.ranks then c.other else c

/-- What a square, a piece, a move, a result are called. -/
def square (v : View) (s : Square) : Square := Square.at (v.file s.column) (v.rank s.row)
def piece (v : View) (x : Piece) : Piece := Piece.mk' (kindOfPiece x) (v.color (colorOfPiece x))

def move (v : View) : Move → Move
  | .Normal s t promote => .Normal (v.square s) (v.square t) promote
  | .Drop x t => .Drop (v.piece x) (v.square t)

def action (v : View) : Action → Action
  | .move f r f' r' promote => .move (v.file f) (v.rank r) (v.file f') (v.rank r') promote
  | .drop k c f r => .drop k (v.color c) (v.file f) (v.rank r)

def status (v : View) : PositionStatus → PositionStatus
  | .BlackWins => if v.ranks then .WhiteWins else .BlackWins
  | .WhiteWins => if v.ranks then .BlackWins else .WhiteWins
  | s => s

end View

/-- `S'` is what `S` looks like. -/
structure Shogi.Seen (v : View) (S S' : Shogi) : Prop where
  board : ∀ f r, Inside f r →
    S'.board (v.file f) (v.rank r) = (S.board f r).map fun x => (x.1, v.color x.2)
  hand : ∀ c k, k.InHand → S'.hand (v.color c) k = S.hand c k
  side : S'.side = v.color S.side

/-- … for positions of the crate. -/
structure PartialPosition.Seen [Profile] (v : View) (p p' : PartialPosition) : Prop where
  board : ∀ s : Square, s.Valid → p'.piece_at (v.square s) = Option.map v.piece <$> p.piece_at s
  hand : ∀ k c, k.InHand → p'.hand (Piece.mk' k (v.color c)) = p.hand (Piece.mk' k c)
  side : p'.side_to_move = v.color p.side_to_move
  ply : p'.get_ply = p.get_ply

end ShogiCore
