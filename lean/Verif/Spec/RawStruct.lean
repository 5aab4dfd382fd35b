import Verif.Spec.Setup

/- `struct PartialPosition` filled in by hand.  The header publishes all its members, and the C
interface has no function that puts a piece on the board, so this is how a C program sets up a
position other than the starting position. -/

namespace ShogiCore

/-- Two computations with related results: both end normally with related values, or both
panic, or both are undefined. -/
inductive Res.Rel {α β : Type} (R : α → β → Prop) : Res α → Res β → Prop
  | ok {a b} : R a b → Res.Rel R (.ok a) (.ok b)
  | panic : Res.Rel R .panic .panic
  | ub : Res.Rel R .ub .ub

/-- Bit `i` of a bitboard: 63 bits in the first word, 18 in the second. -/
def Bitboard.cBit (b : Bitboard) (i : Nat) : Bool :=
  if i < 63 then b.w0.toNat.testBit i else b.w1.toNat.testBit (i - 63)

/-- Bytes that are documented codes: 0 for none, 1-14 for Black, 17-30 for White. -/
def CellCode (b : U8) : Prop :=
  b.toNat = 0 ∨ (1 ≤ b.toNat ∧ b.toNat ≤ 14) ∨ (17 ≤ b.toNat ∧ b.toNat ≤ 30)

/-- Bytes whose low four bits name a kind. -/
def HarmlessCode (b : U8) : Prop :=
  b.toNat = 0 ∨ (1 ≤ b.toNat % 16 ∧ b.toNat % 16 ≤ 14)

namespace PartialPosition

/-- The bytes of the board are codes and the unused eighth bytes of the hands are zero.  Nothing
is said about bitboards, king squares, last move and move number. -/
structure Legible (p : PartialPosition) : Prop where
  board : ∀ i, (h : i < 81) → CellCode p.board[i].val
  hands : ∀ c, (h : c < 2) → p.hands[c].cells[7] = 0

/-- The member that holds the last move. -/
def LastFilled (p : PartialPosition) [Profile] : Prop :=
  p.last_move.val = 0 ∨ ∃ m, m.CanBeLast ∧ CompactMove.ofMove m = .ok ⟨p.last_move.val⟩

/-- The code of the king of the player with index `c`. -/
def kingCode (c : Nat) : Nat := 8 + 16 * c

/-- How to fill in all members so that they fit together. -/
structure Filled [Profile] (p : PartialPosition) : Prop where
  legible : p.Legible
  /-- `player_bb[c]` is the set of squares with a piece of that player, unused bits zero. -/
  player : ∀ c, (hc : c < 2) → p.player_bb[c].w0.toNat < 2 ^ 63 ∧ p.player_bb[c].w1.toNat < 2 ^ 18 ∧
    ∀ i, (h : i < 81) → (p.player_bb[c].cBit i = true ↔
      p.board[i].val.toNat ≠ 0 ∧ p.board[i].val.toNat / 16 = c)
  /-- `piece_bb[k]` is the set of squares with a piece of that kind, unused bits zero. -/
  kind : ∀ k, (hk : k < 14) → p.piece_bb[k].w0.toNat < 2 ^ 63 ∧ p.piece_bb[k].w1.toNat < 2 ^ 18 ∧
    ∀ i, (h : i < 81) → (p.piece_bb[k].cBit i = true ↔ p.board[i].val.toNat % 16 = k + 1)
  last : p.LastFilled
  ply : p.ply.toNat = 0 → p.last_move.val.toNat ≠ 0
  king_range : ∀ c, (hc : c < 2) → p.king_square[c].val.toNat ≤ 81
  /-- A player with a king on the board has a king square. -/
  king_seen : ∀ c, (hc : c < 2) → ∀ i, (h : i < 81) → p.board[i].val.toNat = kingCode c →
    p.king_square[c].val.toNat ≠ 0
  /-- The two kings do not stand on each other's king square. -/
  king_swap : ∀ i j, (hi : i < 81) → (hj : j < 81) → p.king_square[0].val.toNat = i + 1 →
    p.king_square[1].val.toNat = j + 1 →
    ¬ (p.board[i].val.toNat = kingCode 1 ∧ p.board[j].val.toNat = kingCode 0)

end PartialPosition

/-- Places where the derived members of a struct are allowed to be wrong. -/
structure Damage where
  player : Color → Square → Prop
  kind : PieceKind → Square → Prop
  king : Color → Prop

/-- The same board, hands, side and move number; the bitboards and king squares agree except where
damaged. -/
structure PartialPosition.Twin [Profile] (D : Damage) (p q : PartialPosition) : Prop where
  board : p.board = q.board
  hands : p.hands = q.hands
  side : p.side = q.side
  ply : p.ply = q.ply
  player : ∀ c s a b, s.Valid → ¬ D.player c s → p.player_bitboard c = .ok a →
    q.player_bitboard c = .ok b → (a.Mem s ↔ b.Mem s)
  kind : ∀ k s a b, s.Valid → ¬ D.kind k s → p.piece_kind_bitboard k = .ok a →
    q.piece_kind_bitboard k = .ok b → (a.Mem s ↔ b.Mem s)
  king : ∀ c, ¬ D.king c → p.king_position c = q.king_position c

/-- The king square of a player is right: it holds a king of that player, or it is unset and there
is none. -/
def PartialPosition.KingRight [Profile] (p : PartialPosition) (c : Color) : Prop :=
  (∃ s : Square, s.Valid ∧ p.king_position c = .ok (some s) ∧
    p.piece_at s = .ok (some (Piece.mk' .King c))) ∨
  (p.king_position c = .ok none ∧
    ∀ s : Square, s.Valid → p.piece_at s ≠ .ok (some (Piece.mk' .King c)))

/-- The places where the derived members of a struct do not fit its board. -/
def PartialPosition.wrong [Profile] (p : PartialPosition) : Damage where
  player c s := ¬ ∀ a, p.player_bitboard c = .ok a →
    (a.Mem s ↔ ∃ k, p.piece_at s = .ok (some (Piece.mk' k c)))
  kind k s := ¬ ∀ a, p.piece_kind_bitboard k = .ok a →
    (a.Mem s ↔ ∃ c, p.piece_at s = .ok (some (Piece.mk' k c)))
  king c := ¬ p.KingRight c

/-- A series of calls of `PartialPosition_make_compact_move`, with the answers. -/
def PartialPosition.calls [Profile] : PartialPosition → List CompactMove →
    Res (PartialPosition × List Bool)
  | p, [] => .ok (p, [])
  | p, c :: cs => do
    let (p, v) ← p.make_compact_move c
    let (p, vs) ← p.calls cs
    return (p, v :: vs)

end ShogiCore
