import Verif.Model.Legality

/- Models the `Ord`/`PartialEq`/`Hash` impls (`PartialOrd` is in Model/PartialOrd.lean): shogi_core/src/annotated_derive.rs and its
invocations, and the hand-written ones in mv.rs.  (`OptionPieceKind` has none of these traits,
piece_kind.rs:307-319.) -/

namespace ShogiCore

/-! ### `core` instances -/

/-- `Ord::cmp` of unsigned integers (`NonZeroU8`/`NonZeroU16` compare by value;
annotated_derive.rs:59, 79, 100). -/
def cmpInt {n : Nat} (a b : BitVec n) : Ordering := compare a.toNat b.toNat

/-- `Ord::cmp` of `bool`: `false < true` (mv.rs:99). -/
def cmpBool (a b : Bool) : Ordering := compare a.toNat b.toNat

/-- `Ord::cmp` of slices, arrays and `Vec`: lexicographic, a proper prefix is less
(annotated_derive.rs:59, 79). -/
def cmpList {α : Type} (cmp : α → α → Ordering) : List α → List α → Ordering
  | [], [] => .eq
  | [], _ :: _ => .lt
  | _ :: _, [] => .gt
  | a :: as, b :: bs => (cmp a b).then (cmpList cmp as bs)

/-! ### impls -/

/-- annotated_derive.rs:99-103 at color.rs:69. -/
def Color.cmp (a b : Color) : Ordering := cmpInt a.toU8 b.toU8
/-- annotated_derive.rs:99-103 at piece_kind.rs:279. -/
def PieceKind.cmp (a b : PieceKind) : Ordering := cmpInt a.toU8 b.toU8
/-- annotated_derive.rs:99-103 at game_resolution.rs:42. -/
def GameResolution.cmp (a b : GameResolution) : Ordering := cmpInt a.toU8 b.toU8
/-- annotated_derive.rs:99-103 at illegal_move_kind.rs:65. -/
def IllegalMoveKind.cmp (a b : IllegalMoveKind) : Ordering := cmpInt a.toU8 b.toU8
/-- annotated_derive.rs:99-103 at legality.rs:24. -/
def PositionStatus.cmp (a b : PositionStatus) : Ordering := cmpInt a.toU8 b.toU8
/-- annotated_derive.rs:58-62 at square.rs:263. -/
def Square.cmp (a b : Square) : Ordering := cmpInt a.val b.val
/-- annotated_derive.rs:58-62 at square.rs:307. -/
def OptionSquare.cmp (a b : OptionSquare) : Ordering := cmpInt a.val b.val
/-- annotated_derive.rs:58-62 at piece.rs:172. -/
def Piece.cmp (a b : Piece) : Ordering := cmpInt a.val b.val
/-- annotated_derive.rs:58-62 at piece.rs:192. -/
def OptionPiece.cmp (a b : OptionPiece) : Ordering := cmpInt a.val b.val
/-- annotated_derive.rs:58-62 at mv.rs:287. -/
def CompactMove.cmp (a b : CompactMove) : Ordering := cmpInt a.val b.val
/-- annotated_derive.rs:58-62 at mv.rs:324. -/
def OptionCompactMove.cmp (a b : OptionCompactMove) : Ordering := cmpInt a.val b.val
/-- annotated_derive.rs:58-62 at game_resolution.rs:83. -/
def OptionGameResolution.cmp (a b : OptionGameResolution) : Ordering := cmpInt a.val b.val
/-- annotated_derive.rs:58-62 at illegal_move_kind.rs:129. -/
def ResultUnitIllegalMoveKind.cmp (a b : ResultUnitIllegalMoveKind) : Ordering :=
  cmpInt a.val b.val
/-- annotated_derive.rs:58-62 at hand.rs:198 (the field is `[u8; 8]`). -/
def Hand.cmp (a b : Hand) : Ordering := cmpList cmpInt a.cells.toList b.cells.toList
/-- annotated_derive.rs:58-62 at bitboard.rs:522 (the field is `[u64; 2]`). -/
def Bitboard.cmp (a b : Bitboard) : Ordering := cmpList cmpInt [a.w0, a.w1] [b.w0, b.w1]
/-- annotated_derive.rs:58-62 at bitboard.rs:600. -/
def ByteSwappedBitboard.cmp (a b : ByteSwappedBitboard) : Ordering :=
  cmpList cmpInt [a.w0, a.w1] [b.w0, b.w1]

/-- mv.rs:84-111 `Ord for Move` (tuples compare lexicographically). -/
def Move.cmp : Move → Move → Ordering
  | .Normal _ _ _, .Drop _ _ => .lt
  | .Drop _ _, .Normal _ _ _ => .gt
  | .Normal from1 to1 promote1, .Normal from2 to2 promote2 =>
    (from1.cmp from2).then ((to1.cmp to2).then (cmpBool promote1 promote2))
  | .Drop piece1 to1, .Drop piece2 to2 => (piece1.cmp piece2).then (to1.cmp to2)

/-- annotated_derive.rs:79-81 at position.rs:856:
fields `side, ply, hands, board, last_move`. -/
def PartialPosition.cmp (a b : PartialPosition) : Ordering :=
  (a.side.cmp b.side).then <|
  (cmpInt a.ply b.ply).then <|
  (cmpList Hand.cmp a.hands.toList b.hands.toList).then <|
  (cmpList OptionPiece.cmp a.board.toList b.board.toList).then <|
  a.last_move.cmp b.last_move

/-- annotated_derive.rs:79-81 at position.rs:94. -/
def PartialGame.cmp (a b : PartialGame) : Ordering :=
  (a.inner.cmp b.inner).then (a.resolution.cmp b.resolution)

/-- annotated_derive.rs:79-81 at position.rs:364. -/
def Position.cmp (a b : Position) : Ordering :=
  (a.initial.cmp b.initial).then <|
  (a.inner.cmp b.inner).then <|
  cmpList Move.cmp a.moves b.moves

/-- annotated_derive.rs:79-81 at position.rs:52. -/
def Game.cmp (a b : Game) : Ordering :=
  (a.inner.cmp b.inner).then (a.resolution.cmp b.resolution)

/-! ### `PartialEq`

Derived field by field.  For the types with integer fields the model uses `=`; `Hand` has its
own impl (`Hand.eq`), which the position types inherit. -/

/-- `PartialEq` of arrays and `Vec`s (for position.rs:100, 374). -/
def eqList {α : Type} (eq : α → α → Bool) : List α → List α → Bool
  | [], [] => true
  | a :: as, b :: bs => eq a b && eqList eq as bs
  | _, _ => false

/-- position.rs:374 derived `PartialEq` (all eight fields). -/
def PartialPosition.eq (a b : PartialPosition) : Bool :=
  a.side == b.side && a.ply == b.ply && eqList Hand.eq a.hands.toList b.hands.toList &&
  eqList (· == ·) a.board.toList b.board.toList &&
  eqList (· == ·) a.player_bb.toList b.player_bb.toList &&
  eqList (· == ·) a.piece_bb.toList b.piece_bb.toList &&
  a.last_move == b.last_move && eqList (· == ·) a.king_square.toList b.king_square.toList

/-- position.rs:57 derived `PartialEq`. -/
def PartialGame.eq (a b : PartialGame) : Bool := a.inner.eq b.inner && a.resolution == b.resolution

/-- position.rs:100 derived `PartialEq`. -/
def Position.eq (a b : Position) : Bool :=
  a.initial.eq b.initial && a.inner.eq b.inner && eqList (· == ·) a.moves b.moves

/-- position.rs:13 derived `PartialEq`. -/
def Game.eq (a b : Game) : Bool := a.inner.eq b.inner && a.resolution == b.resolution

/-! ### `Hash` -/

/-- The calls a `Hash` impl makes on the `Hasher` (annotated_derive.rs:14, 26, 39). -/
inductive HashOp where
  | u8 (v : U8)
  | u16 (v : U16)
  | u64 (v : U64)
  /-- `write_length_prefix` / `write_usize` with a slice length. -/
  | len (n : Nat)
  /-- `core::mem::discriminant(_).hash`. -/
  | discr (v : Nat)
  /-- `Hasher::write` with raw bytes (`[u8]`). -/
  | bytes (l : List U8)
  deriving DecidableEq, Repr

/-- `core`'s `Hash for [T]` / `[T; N]` / `Vec<T>` with element hash `h`: a length prefix,
then the elements (annotated_derive.rs:14, 26). -/
def hashList {α : Type} (h : α → List HashOp) (l : List α) : List HashOp :=
  .len l.length :: l.flatMap h

/-- annotated_derive.rs:38-40 at color.rs:70. -/
def Color.hash (a : Color) : List HashOp := [.discr a.toU8.toNat]
/-- annotated_derive.rs:38-40 at piece_kind.rs:280. -/
def PieceKind.hash (a : PieceKind) : List HashOp := [.discr a.toU8.toNat]
/-- annotated_derive.rs:38-40 at game_resolution.rs:43. -/
def GameResolution.hash (a : GameResolution) : List HashOp := [.discr a.toU8.toNat]
/-- annotated_derive.rs:38-40 at illegal_move_kind.rs:66. -/
def IllegalMoveKind.hash (a : IllegalMoveKind) : List HashOp := [.discr a.toU8.toNat]
/-- annotated_derive.rs:38-40 at legality.rs:25. -/
def PositionStatus.hash (a : PositionStatus) : List HashOp := [.discr a.toU8.toNat]
/-- annotated_derive.rs:13-15 at square.rs:264. -/
def Square.hash (a : Square) : List HashOp := [.u8 a.val]
/-- annotated_derive.rs:13-15 at square.rs:308. -/
def OptionSquare.hash (a : OptionSquare) : List HashOp := [.u8 a.val]
/-- annotated_derive.rs:13-15 at piece.rs:173. -/
def Piece.hash (a : Piece) : List HashOp := [.u8 a.val]
/-- annotated_derive.rs:13-15 at piece.rs:193. -/
def OptionPiece.hash (a : OptionPiece) : List HashOp := [.u8 a.val]
/-- annotated_derive.rs:13-15 at mv.rs:288. -/
def CompactMove.hash (a : CompactMove) : List HashOp := [.u16 a.val]
/-- annotated_derive.rs:13-15 at mv.rs:325. -/
def OptionCompactMove.hash (a : OptionCompactMove) : List HashOp := [.u16 a.val]
/-- annotated_derive.rs:13-15 at game_resolution.rs:84. -/
def OptionGameResolution.hash (a : OptionGameResolution) : List HashOp := [.u8 a.val]
/-- annotated_derive.rs:13-15 at illegal_move_kind.rs:130. -/
def ResultUnitIllegalMoveKind.hash (a : ResultUnitIllegalMoveKind) : List HashOp := [.u8 a.val]
/-- annotated_derive.rs:13-15 at hand.rs:199 (`[u8; 8]`: length prefix, then raw bytes). -/
def Hand.hash (a : Hand) : List HashOp := [.len 8, .bytes a.cells.toList]
/-- annotated_derive.rs:13-15 at bitboard.rs:523. -/
def Bitboard.hash (a : Bitboard) : List HashOp := hashList (fun v => [.u64 v]) [a.w0, a.w1]
/-- annotated_derive.rs:13-15 at bitboard.rs:601. -/
def ByteSwappedBitboard.hash (a : ByteSwappedBitboard) : List HashOp :=
  hashList (fun v => [.u64 v]) [a.w0, a.w1]

/-- mv.rs:117-130 `Hash for Move` (`bool` hashes as a `u8`). -/
def Move.hash : Move → List HashOp
  | .Normal src to promote =>
    [.discr 0] ++ src.hash ++ to.hash ++ [.u8 (if promote then 1 else 0)]
  | .Drop piece to => [.discr 1] ++ piece.hash ++ to.hash

/-- annotated_derive.rs:25-27 at position.rs:857:
fields `side, ply, hands, board, last_move`. -/
def PartialPosition.hash (a : PartialPosition) : List HashOp :=
  a.side.hash ++ [.u16 a.ply] ++ hashList Hand.hash a.hands.toList ++
  hashList OptionPiece.hash a.board.toList ++ a.last_move.hash

/-- annotated_derive.rs:25-27 at position.rs:95. -/
def PartialGame.hash (a : PartialGame) : List HashOp := a.inner.hash ++ a.resolution.hash

/-- annotated_derive.rs:25-27 at position.rs:366. -/
def Position.hash (a : Position) : List HashOp :=
  a.initial.hash ++ a.inner.hash ++ hashList Move.hash a.moves

/-- annotated_derive.rs:25-27 at position.rs:54. -/
def Game.hash (a : Game) : List HashOp := a.inner.hash ++ a.resolution.hash

/-- Running a hasher (state `S`, one transition per call) on a value's hash calls
(annotated_derive.rs:13). -/
def runHasher {S : Type} (step : S → HashOp → S) (s : S) (ops : List HashOp) : S :=
  ops.foldl step s

end ShogiCore
