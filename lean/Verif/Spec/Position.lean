import Verif.Spec.Text
import Verif.Spec.Bitboard

/- What positions and games are supposed to do, in terms of the observers `piece_at`,
`hand`, `side_to_move`, `ply`, `last_move`. -/

namespace ShogiCore

variable [Profile]

/-- A move makes sense in a position. -/
def PartialPosition.Acceptable (p : PartialPosition) : Move → Prop
  | .Normal s t pr => ∃ k,
      p.piece_at s = .ok (some (Piece.mk' k p.side_to_move)) ∧
      (p.piece_at t = .ok none ∨
        ∃ l, l ≠ .King ∧ p.piece_at t = .ok (some (Piece.mk' l p.side_to_move.other))) ∧
      (pr = true → ∃ k', PromotesTo k k')
  | .Drop x t => ∃ k n,
      x = Piece.mk' k p.side_to_move ∧ k.InHand ∧ p.piece_at t = .ok none ∧
      p.hand x = .ok (some n) ∧ n ≠ 0

/-- The change of the board. -/
def PartialPosition.BoardAfter (p : PartialPosition) (m : Move) (q : PartialPosition) : Prop :=
  match m with
  | .Normal s t pr =>
    (∃ k k', p.piece_at s = .ok (some (Piece.mk' k p.side_to_move)) ∧
      (if pr then PromotesTo k k' else k' = k) ∧
      q.piece_at t = .ok (some (Piece.mk' k' p.side_to_move))) ∧
    q.piece_at s = .ok none ∧
    ∀ u : Square, u.Valid → u ≠ s → u ≠ t → q.piece_at u = p.piece_at u
  | .Drop x t =>
    q.piece_at t = .ok (some x) ∧
    ∀ u : Square, u.Valid → u ≠ t → q.piece_at u = p.piece_at u

/-- The mover `c` captures a piece whose unpromoted form is `k` on `t`. -/
def PartialPosition.Captures (p : PartialPosition) (t : Square) (k : PieceKind) (c : Color) : Prop :=
  c = p.side_to_move ∧
    ∃ l : PieceKind, l.base = k ∧ p.piece_at t = .ok (some (Piece.mk' l p.side_to_move.other))

/-- The change of the number `n` of pieces of kind `k` in the hand of `c`. -/
def PartialPosition.HandAfter (p : PartialPosition) (m : Move) (k : PieceKind) (c : Color)
    (n n' : U8) : Prop :=
  match m with
  | .Normal _ t _ =>
    (p.Captures t k c → n' = n + 1) ∧ (¬ p.Captures t k c → n' = n)
  | .Drop x _ => if x = Piece.mk' k c then n ≠ 0 ∧ n' = n - 1 else n' = n

/-- The documented effect of a move. -/
structure PartialPosition.Played (p : PartialPosition) (m : Move) (q : PartialPosition) : Prop where
  board : p.BoardAfter m q
  hands : ∀ k c, k.InHand → ∃ n n', p.hand (Piece.mk' k c) = .ok (some n) ∧
    q.hand (Piece.mk' k c) = .ok (some n') ∧ p.HandAfter m k c n n'
  last : q.get_last_move = .ok (some m)
  last_compact : ∃ c, CompactMove.ofMove m = .ok c ∧ q.last_compact_move = some c
  side : q.side_to_move = p.side_to_move.other
  ply : q.get_ply.toNat = (p.get_ply.toNat + 1) % 65536

/-- What a caller can do to a position. -/
inductive ApiStep : PartialPosition → PartialPosition → Prop
  | make_move {p q m r} : m.Valid → p.make_move m = .ok (q, r) → ApiStep p q
  | make_compact_move {p q c r} : c.Valid → p.make_compact_move c = .ok (q, r) → ApiStep p q
  | piece_set {p q s o} : s.Valid → (∀ x, o = some x → x.Valid) → p.piece_set s o = .ok q →
      ApiStep p q
  | hand {p q c h} : Hand.Valid h → p.hand_of_a_player_mut_assign c h = .ok q → ApiStep p q
  | side {p c} : ApiStep p (p.side_to_move_set c)
  | ply {p n} : ApiStep p (p.ply_set n).1

/-- Positions obtainable through the API. -/
inductive ApiReach : PartialPosition → Prop
  | empty : ApiReach PartialPosition.empty
  | startpos {p} : PartialPosition.startpos = .ok p → ApiReach p
  | step {p q} : ApiReach p → ApiStep p q → ApiReach q

/-- Positions obtained from `p` by a sequence of move calls, with the moves that were
accepted, oldest first. -/
inductive Game.From (p : PartialPosition) : List Move → PartialPosition → Prop
  | start : Game.From p [] p
  | accept {l q r m} : Game.From p l q → m.Valid → q.make_move m = .ok (r, some ()) →
      Game.From p (l ++ [m]) r
  | reject {l q r m} : Game.From p l q → m.Valid → q.make_move m = .ok (r, none) →
      Game.From p l r

/-- Positions of games: move calls, accepted or not, from the starting position. -/
def GameReach (q : PartialPosition) : Prop :=
  ∃ p l, PartialPosition.startpos = .ok p ∧ Game.From p l q

/-- All 81 squares. -/
def allSquares : List Square := (List.range 81).map fun i => Square.at (i / 9 + 1) (i % 9 + 1)

end ShogiCore

namespace ShogiCore

variable [Profile]

/-- Playing a list of moves; `none` if one of them is rejected. -/
def PartialPosition.replay : PartialPosition → List Move → Res (Option PartialPosition)
  | p, [] => .ok (some p)
  | p, m :: l => do
    let (q, r) ← p.make_move m
    if r.isSome then q.replay l else .ok none

/-- `Position`s obtained from `arbitrary_position(p)` by calls of the two move functions, with
the moves that were accepted, oldest first. -/
inductive Position.From (p : PartialPosition) : List Move → Position → Prop
  | start : Position.From p [] (Position.arbitrary_position p)
  | make_move {l q r m v} : Position.From p l q → m.Valid → q.make_move m = .ok (r, v) →
      Position.From p (if v.isSome then l ++ [m] else l) r
  | make_compact_move {l q r m c v} : Position.From p l q → m.Valid → CompactMove.ofMove m = .ok c →
      q.make_compact_move c = .ok (r, v) → Position.From p (if v then l ++ [m] else l) r

/-- Number of pieces on the board whose unpromoted form is `k`. -/
def PartialPosition.onBoard (p : PartialPosition) (k : PieceKind) : Nat :=
  (allSquares.filter fun s =>
    match p.piece_at s with
    | .ok (some x) => decide ((kindOfPiece x).base = k)
    | _ => false).length

/-- Number of pieces of kind `k` in the hand of `c`. -/
def PartialPosition.inHand (p : PartialPosition) (k : PieceKind) (c : Color) : Nat :=
  match p.hand (Piece.mk' k c) with
  | .ok (some n) => n.toNat
  | _ => 0

/-- The number of pieces of each kind in a game of shogi. -/
def pieceSupply : PieceKind → Nat
  | .Pawn => 18
  | .Lance | .Knight | .Silver | .Gold => 4
  | .Bishop | .Rook | .King => 2
  | _ => 0

/-- `s` is the one and only square with the king of `c`. -/
def PartialPosition.KingAt (p : PartialPosition) (c : Color) (s : Square) : Prop :=
  s.Valid ∧ ∀ t : Square, t.Valid → (p.piece_at t = .ok (some (Piece.mk' .King c)) ↔ t = s)

/-- The starting array as printed in any rule book: rank 1 (White's back rank) first, file 9
on the left; upper case is Black. -/
def startDiagram : List String :=
  ["lnsgkgsnl",
   ".r.....b.",
   "ppppppppp",
   ".........",
   ".........",
   ".........",
   "PPPPPPPPP",
   ".B.....R.",
   "LNSGKGSNL"]

/-- Letters of diagrams. -/
def diagramLetter : Char → Option Piece
  | 'P' => some (Piece.mk' .Pawn .Black) | 'p' => some (Piece.mk' .Pawn .White)
  | 'L' => some (Piece.mk' .Lance .Black) | 'l' => some (Piece.mk' .Lance .White)
  | 'N' => some (Piece.mk' .Knight .Black) | 'n' => some (Piece.mk' .Knight .White)
  | 'S' => some (Piece.mk' .Silver .Black) | 's' => some (Piece.mk' .Silver .White)
  | 'G' => some (Piece.mk' .Gold .Black) | 'g' => some (Piece.mk' .Gold .White)
  | 'B' => some (Piece.mk' .Bishop .Black) | 'b' => some (Piece.mk' .Bishop .White)
  | 'R' => some (Piece.mk' .Rook .Black) | 'r' => some (Piece.mk' .Rook .White)
  | 'K' => some (Piece.mk' .King .Black) | 'k' => some (Piece.mk' .King .White)
  | _ => none

/-- What the diagram shows on file `f`, rank `r`. -/
def diagramAt (f r : Nat) : Option Piece :=
  ((startDiagram[r - 1]?).bind fun row => row.toList[9 - f]?).bind diagramLetter

end ShogiCore
