import Verif.Spec.Generate
import Verif.Spec.Rules

/- Client programs that find attacked squares, checks and legal moves with the bitboards of a position,
as engines do.  They use nothing but functions of the crate and the table of how pieces move
(Spec/Rules.lean).  None of this is in the crate, which leaves it to its users
(legality.rs:27-30). -/

namespace ShogiCore
variable [Profile]

/-- Directions as a player sees them. -/
def Color.turn (c : Color) (d : Int × Int) : Int × Int := (c.facing * d.1, c.facing * d.2)

namespace Bitboard

/-- All squares moved along the ranks, towards higher files if `x` is positive; those that leave the
board are dropped.  `shift_right` by 1 may leave a bit that stands for no square (C22_refuted), so the
client masks it off with `& !Bitboard::empty()`. -/
def sideways (b : Bitboard) (x : Int) : Res Bitboard := do
  if 0 ≤ x then b.shift_left (BitVec.ofNat 8 x.natAbs)
  else return (← b.shift_right (BitVec.ofNat 8 x.natAbs)).bitand empty.not

/-- All squares moved by (files, ranks). -/
def offset (b : Bitboard) (d : Int × Int) : Res Bitboard := do
  let b ← b.sideways d.1
  if 0 ≤ d.2 then b.shift_down (BitVec.ofNat 8 d.2.natAbs) else b.shift_up (BitVec.ofNat 8 d.2.natAbs)

/-- All squares moved up to `n` times, stopped by what is not `free`. -/
def ray (free : Bitboard) (d : Int × Int) : Nat → Bitboard → Res Bitboard
  | 0, _ => .ok empty
  | n + 1, b => do
    let next ← b.offset d
    return next.bitor (← ray free d n (next.bitand free))

omit [Profile] in
/-- `for x in l { result |= f(x) }`. -/
def unite {α : Type} (f : α → Res Bitboard) : List α → Res Bitboard
  | [] => .ok empty
  | x :: l => do return (← f x).bitor (← unite f l)

/-- Where pieces of a kind and colour get from the squares of a set, if these squares are free. -/
def reach (free : Bitboard) (k : PieceKind) (c : Color) (b : Bitboard) : Res Bitboard := do
  let near ← unite (fun d => b.offset (c.turn d)) k.steps
  let far ← unite (fun d => ray free (c.turn d) 8 b) k.slides
  return near.bitor far

end Bitboard

namespace PartialPosition

/-- All squares a player attacks. -/
def attacks (p : PartialPosition) (c : Color) : Res Bitboard :=
  Bitboard.unite (fun k => do p.vacant_bitboard.reach k c (← p.piece_bitboard (← Piece.new k c))) PieceKind.all

/-- The pieces of a player that attack a square, found by going from that square as the other player's
pieces do. -/
def attackers (p : PartialPosition) (c : Color) (t : Square) : Res Bitboard :=
  Bitboard.unite (fun k => do
    let back ← p.vacant_bitboard.reach k (← c.flip) (← Bitboard.single t)
    return back.bitand (← p.piece_bitboard (← Piece.new k c))) PieceKind.all

/-- Is a player in check? -/
def in_check (p : PartialPosition) (c : Color) : Res Bool := do
  let kings ← p.piece_bitboard (← Piece.new .King c)
  let attacked ← p.attacks (← c.flip)
  return !(attacked.bitand kings).is_empty

end PartialPosition

/-- Would the piece be stuck on that square? -/
def Piece.stuck (x : Piece) (t : Square) : Res Bool := do
  let r ← t.relative_rank (← x.color)
  match ← x.piece_kind with
  | .Pawn | .Lance => return decide (r.toNat = 1)
  | .Knight => return decide (r.toNat ≤ 2)
  | _ => return false

namespace PartialPosition

/-- May the piece on `s` make this move? -/
def fits_piece (p : PartialPosition) (s t : Square) (promote : Bool) (x : Piece) : Res Bool := do
  let c ← x.color
  let k ← x.piece_kind
  let own ← p.player_bitboard c
  let there ← p.vacant_bitboard.reach k c (← Bitboard.single s)
  let near := decide ((← s.relative_rank c).toNat ≤ 3) || decide ((← t.relative_rank c).toNat ≤ 3)
  let stuck ← x.stuck t
  return decide (c = p.side_to_move) && !(← own.contains t) && (← there.contains t) &&
    (if promote then k.promote.isSome && near else !stuck)

/-- Is there a pawn of that colour on the file of `t`? -/
def pawn_on_file (p : PartialPosition) (c : Color) (t : Square) : Res Bool := do
  let pawns ← p.piece_bitboard (← Piece.new .Pawn c)
  return (← pawns.get_file_unchecked (← t.file)) != 0

/-- May the piece be dropped there? -/
def fits_drop (p : PartialPosition) (x : Piece) (t : Square) : Res Bool := do
  let c ← x.color
  let k ← x.piece_kind
  let n ← p.hand x
  let stuck ← x.stuck t
  let double ← p.pawn_on_file c t
  return decide (c = p.side_to_move) && decide (n.getD 0 ≠ 0) && (← p.vacant_bitboard.contains t) && !stuck &&
    !(decide (k = .Pawn) && double)

/-- Is it a move the piece can make? -/
def fits (p : PartialPosition) : Move → Res Bool
  | .Normal s t promote => do
    match ← p.piece_at s with
    | none => return false
    | some x => p.fits_piece s t promote x
  | .Drop x t => p.fits_drop x t

/-- … that `make_move` accepts and that does not leave the own king attacked? -/
def safe (p : PartialPosition) (m : Move) : Res Bool := do
  if ← p.fits m then
    let (q, v) ← p.make_move m
    if v.isSome then return !(← q.in_check p.side_to_move) else return false
  else return false

/-- Is the player to move mated? -/
def mated (p : PartialPosition) : Res Bool := do
  let moves ← (LegalityChecker.ofPredicate safe).all_legal_moves_partial p
  return (← p.in_check p.side_to_move) && moves.isEmpty

/-- Does this drop of a pawn mate? -/
def pawn_mate (p : PartialPosition) : Move → Res Bool
  | .Normal .. => .ok false
  | .Drop x t => do
    if (← x.piece_kind) = .Pawn then
      let (q, _) ← p.make_move (.Drop x t)
      q.mated
    else return false

/-- Is it a legal move (and the player not to move not in check)? -/
def legal (p : PartialPosition) (m : Move) : Res Bool := do
  if ← p.in_check (← p.side_to_move.flip) then return false
  else if ← p.safe m then return !(← p.pawn_mate m)
  else return false

end PartialPosition
end ShogiCore
