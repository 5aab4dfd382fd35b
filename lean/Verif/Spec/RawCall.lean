import Verif.Model.RawCall
import Verif.Spec.RawStruct
import Verif.Spec.Bitboard

/- Which raw values a C program may pass. -/

namespace ShogiCore

/-- Bytes that name a square. -/
def SquareByte (n : Nat) : Prop := 1 ≤ n ∧ n ≤ 81
/-- Bytes that name a kind of piece. -/
def KindByte (n : Nat) : Prop := 1 ≤ n ∧ n ≤ 14
/-- Bytes that name a player. -/
def ColorByte (n : Nat) : Prop := n = 1 ∨ n = 2
/-- Documented codes of pieces: 1-14 for Black, 17-30 for White. -/
def PieceByte (n : Nat) : Prop := KindByte n ∨ (17 ≤ n ∧ n ≤ 30)
/-- Bytes that are taken for a piece: only the low four bits count for the kind. -/
def LoosePieceByte (n : Nat) : Prop := KindByte (n % 16)

instance (n : Nat) : Decidable (SquareByte n) := inferInstanceAs (Decidable (_ ∧ _))
instance (n : Nat) : Decidable (KindByte n) := inferInstanceAs (Decidable (_ ∧ _))
instance (n : Nat) : Decidable (ColorByte n) := inferInstanceAs (Decidable (_ ∨ _))
instance (n : Nat) : Decidable (PieceByte n) := inferInstanceAs (Decidable (_ ∨ _))
instance (n : Nat) : Decidable (LoosePieceByte n) := inferInstanceAs (Decidable (KindByte _))

/-- The documented code a loose one is taken for: everything from 16 on is White's. -/
def docPiece (n : Nat) : Nat := n % 16 + if 16 ≤ n then 16 else 0

/-- A bit of the two words of a bitboard: `i < 64` in the first, the others in the second. -/
def Bitboard.rawBit (b : Bitboard) (i : Nat) : Bool :=
  if i < 64 then b.w0.toNat.testBit i else b.w1.toNat.testBit (i - 64)

/-- The first set bit of the two words. -/
def Bitboard.FirstBit (b : Bitboard) (i : Nat) : Prop :=
  i < 128 ∧ b.rawBit i = true ∧ ∀ j < i, b.rawBit j = false

/-- The calls that are defined and do not panic. -/
def CCall.Defined [Profile] : CCall → Prop
  -- any bitboards
  | .Bitboard_bitand .. | .Bitboard_bitand_assign .. | .Bitboard_bitor .. | .Bitboard_bitor_assign ..
  | .Bitboard_bitxor .. | .Bitboard_bitxor_assign .. | .Bitboard_count .. | .Bitboard_flip ..
  | .Bitboard_is_empty .. | .Bitboard_not .. => True
  -- the first set bit must be one of the 81, or the top bit of the first word in a release build
  | .Bitboard_pop b => ∀ i, b.FirstBit i → i < 63 ∨ (i = 63 ∧ Profile.debug = false) ∨ (64 ≤ i ∧ i < 82)
  -- squares
  | .Bitboard_contains _ s | .Bitboard_single s | .Square_file s | .Square_flip s | .Square_index s
  | .Square_rank s | .Square_shift s _ _ | .Square_from_u8_unchecked s
  | .PartialPosition_piece_at _ s | .Position_piece_at _ s => SquareByte s.toNat
  | .Square_relative_file s c | .Square_relative_rank s c => SquareByte s.toNat ∧ ColorByte c.toNat
  | .CompactMove_normal s t _ => SquareByte s.toNat ∧ SquareByte t.toNat
  | .Square_new .. | .Square_from_u8 .. => True
  | .Square_new_relative _ _ c => ColorByte c.toNat
  -- players
  | .Color_flip c | .PartialPosition_hand_of_a_player _ c | .PartialPosition_player_bitboard _ c
  | .Position_hand_of_a_player _ c | .Position_player_bitboard _ c => ColorByte c.toNat
  -- kinds
  | .Hand_add _ k | .Hand_count _ k | .Hand_is_hand_piece k | .Hand_remove _ k
  | .PartialPosition_piece_kind_bitboard _ k | .PieceKind_from_u8_unchecked k
  | .PieceKind_promote k | .PieceKind_unpromote k => KindByte k.toNat
  | .PieceKind_from_u8 .. => True
  | .Piece_new k c => KindByte k.toNat ∧ ColorByte c.toNat
  -- pieces
  | .PartialPosition_piece_bitboard _ x | .Piece_color x | .Piece_piece_kind x | .Piece_promote x
  | .Piece_unpromote x | .Position_piece_bitboard _ x => LoosePieceByte x.toNat
  | .CompactMove_drop x t => x.toNat ≠ 0 ∧ SquareByte t.toNat
  -- moves
  | .CompactMove_is_drop m | .CompactMove_is_promoting m => m.toNat ≠ 0
  | .CompactMove_to m => SquareByte (m.toNat % 128)
  | .CompactMove_from m => m.toNat ≠ 0 ∧ (m.toNat / 128 % 2 = 1 ∨ SquareByte (m.toNat / 256 % 128))
  -- outcomes
  | .GameResolution_from_u8_unchecked r | .Game_resolve _ r | .PartialGame_resolve _ r =>
    1 ≤ r.toNat ∧ r.toNat ≤ 5
  | .IllegalMoveKind_from_u8_unchecked r => 1 ≤ r.toNat ∧ r.toNat ≤ 7

/-! ### The answers -/

/-- The bit of a square in the two words. -/
def squareBit (s : Nat) : Nat := if s ≤ 63 then s - 1 else s

/-- The number of the promoted kind, 0 if there is none. -/
def promoteCode (k : Nat) : Nat :=
  if k ≤ 4 then k + 8 else if k = 6 then 13 else if k = 7 then 14 else 0

/-- The number of the kind before promotion, 0 if the kind is not a promoted one. -/
def unpromoteCode (k : Nat) : Nat :=
  if k ≤ 8 then 0 else if k ≤ 12 then k - 8 else k - 7

/-- The piece of the same player with another kind, 0 for none. -/
def recode (f : Nat → Nat) (x : Nat) : Nat :=
  if f (x % 16) = 0 then 0 else f (x % 16) + if 16 ≤ x then 16 else 0

/-- The two words handed back have these bits. -/
def WordsAre (r : List Nat) (f : Nat → Bool) : Prop :=
  ∃ b : Bitboard, r = b.out ∧ ∀ i < 128, b.rawBit i = f i

/-- The number of the square in a file and rank. -/
def squareCode (f r : Nat) : Nat := if 1 ≤ f ∧ f ≤ 9 ∧ 1 ≤ r ∧ r ≤ 9 then 9 * f + r - 9 else 0

/-- The same, but 0 if off the board. -/
def shiftCode (s : Nat) (df dr : Int) : Nat :=
  let f := ((s - 1) / 9 + 1 : Nat) + df
  let r := ((s - 1) % 9 + 1 : Nat) + dr
  if OnBoard f r then squareCode f.toNat r.toNat else 0

/-- The answer to a call that is defined, as numbers. -/
def CCall.Answer : CCall → List Nat → Prop
  | .Bitboard_bitand a b, r | .Bitboard_bitand_assign a b, r =>
    WordsAre r fun i => a.rawBit i && b.rawBit i
  | .Bitboard_bitor a b, r | .Bitboard_bitor_assign a b, r =>
    WordsAre r fun i => a.rawBit i || b.rawBit i
  | .Bitboard_bitxor a b, r | .Bitboard_bitxor_assign a b, r =>
    WordsAre r fun i => a.rawBit i != b.rawBit i
  -- stray bits do not matter
  | .Bitboard_contains b s, r => r = [(b.rawBit (squareBit s.toNat)).toNat]
  -- stray bits are counted
  | .Bitboard_count b, r => r = [((List.range 128).filter b.rawBit).length]
  -- stray bits of the second word are dropped; the top bit of the first word is taken for square 64
  | .Bitboard_flip b, r => ∃ b' : Bitboard, r = b'.out ∧ b'.Canonical ∧ ∀ s, SquareByte s →
      b'.rawBit (squareBit s) = (b.rawBit (squareBit (82 - s)) || (decide (s = 18) && b.rawBit 63))
  | .Bitboard_is_empty b, r => r = [((List.range 128).all fun i => !b.rawBit i).toNat]
  -- stray bits are dropped
  | .Bitboard_not b, r => WordsAre r fun i => !b.rawBit i && decide (i < 63 ∨ 64 ≤ i ∧ i < 82)
  | .Bitboard_pop b, r => ∃ (b' : Bitboard) (s : Nat), r = b'.out ++ [s] ∧
      ((∀ i < 128, b.rawBit i = false) → s = 0 ∧ b' = b) ∧
      ∀ i, b.FirstBit i → s = (if i < 63 then i + 1 else i) ∧
        ∀ j < 128, b'.rawBit j = (b.rawBit j && decide (j ≠ i))
  | .Bitboard_single s, r => WordsAre r fun i => decide (i = squareBit s.toNat)
  | .Color_flip c, r => r = [3 - c.toNat]
  | .CompactMove_drop x t, r => r = [x.toNat * 256 + 128 + t.toNat]
  | .CompactMove_from m, r =>
    r = [if m.toNat / 128 % 2 = 1 then 0 else m.toNat / 256 % 128]
  | .CompactMove_is_drop m, r => r = [m.toNat / 128 % 2]
  | .CompactMove_is_promoting m, r => r = [m.toNat / 32768]
  | .CompactMove_normal s t p, r => r = [(if p then 32768 else 0) + s.toNat * 256 + t.toNat]
  | .CompactMove_to m, r => r = [m.toNat % 128]
  | .GameResolution_from_u8_unchecked v, r | .Game_resolve _ v, r | .PartialGame_resolve _ v, r
  | .IllegalMoveKind_from_u8_unchecked v, r => r = [v.toNat]
  | .Hand_add h k, r =>
    r = if k.toNat ≤ 7 then (h.out.set (k.toNat - 1) ((h.out[k.toNat - 1]! + 1) % 256)) ++ [1]
      else h.out ++ [0]
  | .Hand_count h k, r => r = [if k.toNat ≤ 7 then h.out[k.toNat - 1]! else 0]
  | .Hand_is_hand_piece k, r => r = [if k.toNat ≤ 7 then 1 else 0]
  | .Hand_remove h k, r =>
    r = if k.toNat ≤ 7 ∧ h.out[k.toNat - 1]! ≠ 0 then
        (h.out.set (k.toNat - 1) (h.out[k.toNat - 1]! - 1)) ++ [1]
      else h.out ++ [0]
  | .PartialPosition_hand_of_a_player p c, r => ∃ h : c.toNat - 1 < 2, r = p.hands[c.toNat - 1].out
  | .PartialPosition_piece_at p s, r => ∃ h : s.toNat - 1 < 81, r = [p.board[s.toNat - 1].val.toNat]
  | .PartialPosition_piece_bitboard p x, r => ∃ h : x.toNat % 16 - 1 < 14,
    WordsAre r fun i => p.piece_bb[x.toNat % 16 - 1].rawBit i &&
      (if 16 ≤ x.toNat then p.player_bb[1] else p.player_bb[0]).rawBit i
  | .PartialPosition_piece_kind_bitboard p k, r => ∃ h : k.toNat - 1 < 14,
    r = p.piece_bb[k.toNat - 1].out
  | .PartialPosition_player_bitboard p c, r => ∃ h : c.toNat - 1 < 2, r = p.player_bb[c.toNat - 1].out
  | .PieceKind_from_u8 v, r => r = [if KindByte v.toNat then v.toNat else 0]
  | .PieceKind_from_u8_unchecked v, r => r = [v.toNat]
  | .PieceKind_promote k, r => r = [promoteCode k.toNat]
  | .PieceKind_unpromote k, r => r = [unpromoteCode k.toNat]
  | .Piece_color x, r => r = [if 16 ≤ x.toNat then 2 else 1]
  | .Piece_new k c, r => r = [k.toNat + 16 * (c.toNat - 1)]
  | .Piece_piece_kind x, r => r = [x.toNat % 16]
  | .Piece_promote x, r => r = [recode promoteCode x.toNat]
  | .Piece_unpromote x, r => r = [recode unpromoteCode x.toNat]
  | .Position_hand_of_a_player p c, r => ∃ h : c.toNat - 1 < 2, r = p.inner.hands[c.toNat - 1].out
  | .Position_piece_at p s, r => ∃ h : s.toNat - 1 < 81, r = [p.inner.board[s.toNat - 1].val.toNat]
  | .Position_piece_bitboard p x, r => ∃ h : x.toNat % 16 - 1 < 14,
    WordsAre r fun i => p.inner.piece_bb[x.toNat % 16 - 1].rawBit i &&
      (if 16 ≤ x.toNat then p.inner.player_bb[1] else p.inner.player_bb[0]).rawBit i
  | .Position_player_bitboard p c, r => ∃ h : c.toNat - 1 < 2,
    r = p.inner.player_bb[c.toNat - 1].out
  | .Square_file s, r => r = [(s.toNat - 1) / 9 + 1]
  | .Square_flip s, r => r = [82 - s.toNat]
  | .Square_from_u8 v, r => r = [if SquareByte v.toNat then v.toNat else 0]
  | .Square_from_u8_unchecked v, r => r = [v.toNat]
  | .Square_index s, r => r = [s.toNat]
  | .Square_new f k, r => r = [squareCode f.toNat k.toNat]
  | .Square_new_relative f k c, r =>
    r = [if c.toNat = 2 ∧ squareCode f.toNat k.toNat ≠ 0 then 82 - squareCode f.toNat k.toNat
      else squareCode f.toNat k.toNat]
  | .Square_rank s, r => r = [(s.toNat - 1) % 9 + 1]
  | .Square_relative_file s c, r =>
    r = [if c.toNat = 2 then 9 - (s.toNat - 1) / 9 else (s.toNat - 1) / 9 + 1]
  | .Square_relative_rank s c, r =>
    r = [if c.toNat = 2 then 9 - (s.toNat - 1) % 9 else (s.toNat - 1) % 9 + 1]
  | .Square_shift s df dr, r => r = [shiftCode s.toNat df.toInt dr.toInt]

/-! ### Moves -/

/-- Words that are taken for a move: a target square, and the byte of a piece if bit 7 is set,
otherwise a source square. -/
def LooseMove (v : Nat) : Prop :=
  SquareByte (v % 128) ∧
    (v / 128 % 2 = 1 → LoosePieceByte (v / 256)) ∧ (v / 128 % 2 = 0 → SquareByte (v / 256 % 128))

/-- The documented code a loose move is taken for. -/
def docMove (v : Nat) : Nat :=
  if v / 128 % 2 = 1 then docPiece (v / 256) * 256 + v % 256 else v

/-- The same position, except that bytes of the board, and of the last move, may be loose codes of
the pieces.  Kings always have their documented code. -/
structure PartialPosition.Alike (p q : PartialPosition) : Prop where
  side : p.side = q.side
  ply : p.ply = q.ply
  hands : p.hands = q.hands
  player_bb : p.player_bb = q.player_bb
  piece_bb : p.piece_bb = q.piece_bb
  king_square : p.king_square = q.king_square
  board : ∀ i, (h : i < 81) → p.board[i].val = q.board[i].val ∨
    (LoosePieceByte p.board[i].val.toNat ∧ p.board[i].val.toNat % 16 ≠ 8 ∧
      q.board[i].val.toNat = docPiece p.board[i].val.toNat)
  last : p.last_move.val = q.last_move.val ∨
    (LooseMove p.last_move.val.toNat ∧ q.last_move.val.toNat = docMove p.last_move.val.toNat)

end ShogiCore
