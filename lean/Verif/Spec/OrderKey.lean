import Verif.Spec.Order

/- What the comparisons compare: lists of numbers in dictionary order, written with the public
observers only. -/

namespace ShogiCore

/-- Dictionary order; a proper prefix comes first. -/
def lexNat : List Nat → List Nat → Ordering
  | [], [] => .eq
  | [], _ :: _ => .lt
  | _ :: _, [] => .gt
  | a :: as, b :: bs => if a < b then .lt else if b < a then .gt else lexNat as bs

/-- `cmp a b` is the dictionary order of the keys of `a` and `b`. -/
def OrderedBy {α : Type} (cmp : α → α → Ordering) (key : α → Res (List Nat)) (a b : α) : Prop :=
  ∃ k l, key a = .ok k ∧ key b = .ok l ∧ cmp a b = lexNat k l

/-- `None` before `Some`. -/
def optCmp {α : Type} (cmp : α → α → Ordering) : Option α → Option α → Ordering
  | none, none => .eq
  | none, some _ => .lt
  | some _, none => .gt
  | some a, some b => cmp a b

/-- Black before White. -/
def Color.place : Color → Nat
  | .Black => 1
  | .White => 2

/-- Unpromoted kinds first, each group as listed in the documentation. -/
def PieceKind.place : PieceKind → Nat
  | .Pawn => 1 | .Lance => 2 | .Knight => 3 | .Silver => 4 | .Gold => 5 | .Bishop => 6
  | .Rook => 7 | .King => 8 | .ProPawn => 9 | .ProLance => 10 | .ProKnight => 11
  | .ProSilver => 12 | .ProBishop => 13 | .ProRook => 14

/-- The order of declaration. -/
def GameResolution.place : GameResolution → Nat
  | .BlackWins => 1 | .WhiteWins => 2 | .Draw => 3 | .Rematch => 4 | .Aborted => 5

/-- The order of declaration. -/
def IllegalMoveKind.place : IllegalMoveKind → Nat
  | .TwoPawns => 1 | .IgnoredCheck => 2 | .DropPawnMate => 3 | .DropStuck => 4
  | .NormalStuck => 5 | .GameFinished => 6 | .IncorrectMove => 7

/-- The order of declaration. -/
def PositionStatus.place : PositionStatus → Nat
  | .BlackWins => 1 | .WhiteWins => 2 | .Draw => 3 | .InProgress => 4 | .Invalid => 5

/-- `Ok` before `Err`. -/
def okCmp {ε : Type} (cmp : ε → ε → Ordering) : Except ε Unit → Except ε Unit → Ordering
  | .ok _, .ok _ => .eq
  | .ok _, .error _ => .lt
  | .error _, .ok _ => .gt
  | .error a, .error b => cmp a b

/-- In strictly ascending order. -/
def Ascending {α : Type} (cmp : α → α → Ordering) (l : List α) : Prop :=
  l.Pairwise fun a b => cmp a b = .lt

/-- The kinds that can be in a hand, weakest first. -/
def handKinds : List PieceKind := [.Pawn, .Lance, .Knight, .Silver, .Gold, .Bishop, .Rook]

variable [Profile]

/-- File first, then rank. -/
def Square.orderKey (s : Square) : Res (List Nat) := do
  return [(← s.file).toNat, (← s.rank).toNat]

/-- Owner first, then kind. -/
def Piece.orderKey (p : Piece) : Res (List Nat) := do
  return [(← p.color).place, (← p.piece_kind).place]

/-- Board moves before drops; board moves by source, destination, promotion; drops by piece and
destination. -/
def Move.orderKey : Move → Res (List Nat)
  | .Normal s t pr => do return [1] ++ (← s.orderKey) ++ (← t.orderKey) ++ [pr.toNat]
  | .Drop p t => do return [2] ++ (← p.orderKey) ++ (← t.orderKey)

/-- Promotions last; then the index of the source or the code of the dropped piece; then board
moves before drops; then the destination. -/
def CompactMove.orderKey (c : CompactMove) : Res (List Nat) := do
  match ← c.toMove with
  | .Normal s t pr => return [pr.toNat, (← s.index).toNat, 0, (← t.index).toNat]
  | .Drop p t => return [0, p.as_u8.toNat, 1, (← t.index).toNat]

/-- The number of pieces of each kind, pawns first. -/
def Hand.orderKey (h : Hand) : Res (List Nat) :=
  handKinds.mapM fun k => do return ((← h.count k).getD 0).toNat

/-- What is on a square: nothing, a piece of Black, a piece of White. -/
def PartialPosition.squareKey (p : PartialPosition) (s : Square) : Res (List Nat) := do
  match ← p.piece_at s with
  | none => return [0, 0]
  | some x => x.orderKey

/-- The last move, if any. -/
def PartialPosition.lastKey (p : PartialPosition) : Res (List Nat) :=
  match p.last_compact_move with
  | none => .ok [0, 0, 0, 0]
  | some c => c.orderKey

/-- Side to move, ply, hands, board (square by square), last move. -/
def PartialPosition.orderKey (p : PartialPosition) : Res (List Nat) := do
  let black ← (← p.hand_of_a_player .Black).orderKey
  let white ← (← p.hand_of_a_player .White).orderKey
  let board ← allSquares.mapM p.squareKey
  return [p.side_to_move.place, p.get_ply.toNat] ++ black ++ white ++ board.flatten ++
    (← p.lastKey)

/-- The position, then how the game has ended, if it has. -/
def PartialGame.orderKey (g : PartialGame) : Res (List Nat) := do
  return (← g.position.orderKey) ++ [((← g.get_resolution).map GameResolution.place).getD 0]

/-- Where the game began, where it is, and the moves, a shorter game before its continuations. -/
def Position.orderKey (p : Position) : Res (List Nat) := do
  return (← p.initial_position.orderKey) ++ (← p.get_inner.orderKey) ++
    (← p.get_moves.mapM Move.orderKey).flatten ++ [0]

/-- The game record, then how the game has ended, if it has. -/
def Game.orderKey (g : Game) : Res (List Nat) := do
  return (← g.position.orderKey) ++ [((← g.get_resolution).map GameResolution.place).getD 0]

/-- How much a square counts in the comparison of two sets of squares: files 1 to 7 count more
than files 8 and 9, and among those the last square counts most. -/
def Square.weight (s : Square) : Res (List Nat) := do
  let f := (← s.file).toNat
  return [if f ≤ 7 then 1 else 0, f, (← s.rank).toNat]

/-- `t` counts more than `s`. -/
def Square.Outweighs (t s : Square) : Prop :=
  ∃ k l, t.weight = .ok k ∧ s.weight = .ok l ∧ lexNat k l = .gt

end ShogiCore
