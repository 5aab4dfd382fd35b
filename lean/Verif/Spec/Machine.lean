import Verif.Spec.Sfen

/- An abstract shogi machine: board, hands, side to move, move number, with unbounded natural
numbers, coordinates instead of square numbers, and no redundancy.  It shares nothing with the
model but the names of the piece kinds and colours. -/

namespace ShogiCore

/-- A state of the abstract machine: contents of (file, rank), hands, side to move, number of
the next move. -/
structure Shogi where
  board : Nat → Nat → Cell
  hand : Color → PieceKind → Nat
  side : Color
  ply : Nat

/-- What a player asks for. -/
inductive Action where
  | move (f r f' r' : Nat) (promote : Bool)
  | drop (k : PieceKind) (c : Color) (f r : Nat)
  deriving DecidableEq

namespace Shogi

/-- Change one square. -/
def put (S : Shogi) (f r : Nat) (x : Cell) : Shogi :=
  { S with board := fun f' r' => if f' = f ∧ r' = r then x else S.board f' r' }

/-- Change one counter. -/
def setHand (S : Shogi) (c : Color) (k : PieceKind) (n : Nat) : Shogi :=
  { S with hand := fun c' k' => if c' = c ∧ k' = k then n else S.hand c' k' }

/-- The turn passes. -/
def pass (S : Shogi) : Shogi := { S with side := S.side.other, ply := S.ply + 1 }

/-- What a piece becomes when it arrives. -/
def arrival (k : PieceKind) (promote : Bool) : Option PieceKind :=
  if promote then promotedKind k else some k

/-- One action; `none` if it makes no sense. -/
def step (S : Shogi) : Action → Option Shogi
  | .move f r f' r' promote =>
    match S.board f r with
    | none => none
    | some (k, c) =>
      if c ≠ S.side then none
      else match arrival k promote with
        | none => none
        | some k' =>
          match S.board f' r' with
          | none => some ((S.put f r none).put f' r' (some (k', c))).pass
          | some (l, d) =>
            if d = S.side ∨ l = .King then none
            else some (((S.put f r none).put f' r' (some (k', c))).setHand c l.base
              (S.hand c l.base + 1)).pass
  | .drop k c f r =>
    if c = S.side ∧ k.InHand ∧ S.board f r = none ∧ S.hand c k ≠ 0 then
      some ((S.put f r (some (k, c))).setHand c k (S.hand c k - 1)).pass
    else none

/-- A sequence of actions; those that make no sense are skipped.  The final state, and which of
the actions were carried out. -/
def run (S : Shogi) : List Action → Shogi × List Bool
  | [] => (S, [])
  | a :: rest =>
    match S.step a with
    | none => let (T, l) := S.run rest; (T, false :: l)
    | some S' => let (T, l) := S'.run rest; (T, true :: l)

/-- The start of a game, from the diagram. -/
def start : Shogi where
  board f r := (diagramAt f r).map fun x => (kindOfPiece x, colorOfPiece x)
  hand _ _ := 0
  side := .Black
  ply := 1

end Shogi

/-- File of a square, from its number. -/
def Square.column (s : Square) : Nat := (s.val.toNat - 1) / 9 + 1
/-- Rank of a square, from its number. -/
def Square.row (s : Square) : Nat := (s.val.toNat - 1) % 9 + 1

/-- What a `Move` asks for. -/
def Move.action : Move → Action
  | .Normal s t pr => .move s.column s.row t.column t.row pr
  | .Drop x t => .drop (kindOfPiece x) (colorOfPiece x) t.column t.row

variable [Profile]

/-- The observers of a position report this abstract state. -/
structure PartialPosition.Shows (p : PartialPosition) (S : Shogi) : Prop where
  board : ∀ f r, 1 ≤ f ∧ f ≤ 9 → 1 ≤ r ∧ r ≤ 9 → p.piece_at (Square.at f r) = .ok (S.board f r).piece
  hand : ∀ c k, k.InHand → ∃ n, p.hand (Piece.mk' k c) = .ok (some n) ∧ n.toNat = S.hand c k
  side : p.side_to_move = S.side
  ply : p.get_ply.toNat = S.ply % 65536

/-- Calling `make_move` with every move of a list, whatever the verdicts: the final position and
the verdicts. -/
def PartialPosition.playAll (p : PartialPosition) : List Move → Res (PartialPosition × List Bool)
  | [] => .ok (p, [])
  | m :: rest => do
    let (q, v) ← p.make_move m
    let (r, l) ← q.playAll rest
    return (r, v.isSome :: l)

end ShogiCore
