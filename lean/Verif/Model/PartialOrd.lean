import Verif.Model.Derive

/- Models the `PartialOrd` impls of shogi_core/src/annotated_derive.rs and mv.rs, and the provided
methods of `PartialOrd` and `Ord`, which nothing in the crate overrides. -/

namespace ShogiCore

/-! ### `core` instances -/

/-- `PartialOrd::partial_cmp` of unsigned integers and `NonZero` integers: `Some(self.cmp(other))`
(called at annotated_derive.rs:52, 93). -/
def pcmpInt {n : Nat} (a b : BitVec n) : Option Ordering := some (cmpInt a b)

/-- `PartialOrd::partial_cmp` of slices and arrays (called at annotated_derive.rs:52): the first
result that is not `Some(Equal)`, else the lengths decide. -/
def pcmpList {α : Type} (pcmp : α → α → Option Ordering) : List α → List α → Option Ordering
  | [], [] => some .eq
  | [], _ :: _ => some .lt
  | _ :: _, [] => some .gt
  | a :: as, b :: bs =>
    match pcmp a b with
    | some .eq => pcmpList pcmp as bs
    | r => r

/-! ### impls -/

/-- annotated_derive.rs:92-94 at color.rs:69. -/
def Color.partial_cmp (a b : Color) : Option Ordering := pcmpInt a.toU8 b.toU8
/-- annotated_derive.rs:92-94 at piece_kind.rs:279. -/
def PieceKind.partial_cmp (a b : PieceKind) : Option Ordering := pcmpInt a.toU8 b.toU8
/-- annotated_derive.rs:92-94 at game_resolution.rs:42. -/
def GameResolution.partial_cmp (a b : GameResolution) : Option Ordering := pcmpInt a.toU8 b.toU8
/-- annotated_derive.rs:92-94 at illegal_move_kind.rs:65. -/
def IllegalMoveKind.partial_cmp (a b : IllegalMoveKind) : Option Ordering := pcmpInt a.toU8 b.toU8
/-- annotated_derive.rs:92-94 at legality.rs:24. -/
def PositionStatus.partial_cmp (a b : PositionStatus) : Option Ordering := pcmpInt a.toU8 b.toU8
/-- annotated_derive.rs:51-53 at square.rs:263. -/
def Square.partial_cmp (a b : Square) : Option Ordering := pcmpInt a.val b.val
/-- annotated_derive.rs:51-53 at square.rs:307. -/
def OptionSquare.partial_cmp (a b : OptionSquare) : Option Ordering := pcmpInt a.val b.val
/-- annotated_derive.rs:51-53 at piece.rs:172. -/
def Piece.partial_cmp (a b : Piece) : Option Ordering := pcmpInt a.val b.val
/-- annotated_derive.rs:51-53 at piece.rs:192. -/
def OptionPiece.partial_cmp (a b : OptionPiece) : Option Ordering := pcmpInt a.val b.val
/-- annotated_derive.rs:51-53 at mv.rs:287. -/
def CompactMove.partial_cmp (a b : CompactMove) : Option Ordering := pcmpInt a.val b.val
/-- annotated_derive.rs:51-53 at mv.rs:324. -/
def OptionCompactMove.partial_cmp (a b : OptionCompactMove) : Option Ordering := pcmpInt a.val b.val
/-- annotated_derive.rs:51-53 at game_resolution.rs:83. -/
def OptionGameResolution.partial_cmp (a b : OptionGameResolution) : Option Ordering :=
  pcmpInt a.val b.val
/-- annotated_derive.rs:51-53 at illegal_move_kind.rs:129. -/
def ResultUnitIllegalMoveKind.partial_cmp (a b : ResultUnitIllegalMoveKind) : Option Ordering :=
  pcmpInt a.val b.val
/-- annotated_derive.rs:51-53 at hand.rs:198 (the field is `[u8; 8]`). -/
def Hand.partial_cmp (a b : Hand) : Option Ordering := pcmpList pcmpInt a.cells.toList b.cells.toList
/-- annotated_derive.rs:51-53 at bitboard.rs:522 (the field is `[u64; 2]`). -/
def Bitboard.partial_cmp (a b : Bitboard) : Option Ordering := pcmpList pcmpInt [a.w0, a.w1] [b.w0, b.w1]
/-- annotated_derive.rs:51-53 at bitboard.rs:600. -/
def ByteSwappedBitboard.partial_cmp (a b : ByteSwappedBitboard) : Option Ordering :=
  pcmpList pcmpInt [a.w0, a.w1] [b.w0, b.w1]
/-- mv.rs:76-78. -/
def Move.partial_cmp (a b : Move) : Option Ordering := some (a.cmp b)
/-- annotated_derive.rs:71-73 at position.rs:856. -/
def PartialPosition.partial_cmp (a b : PartialPosition) : Option Ordering := some (a.cmp b)
/-- annotated_derive.rs:71-73 at position.rs:94. -/
def PartialGame.partial_cmp (a b : PartialGame) : Option Ordering := some (a.cmp b)
/-- annotated_derive.rs:71-73 at position.rs:364. -/
def Position.partial_cmp (a b : Position) : Option Ordering := some (a.cmp b)
/-- annotated_derive.rs:71-73 at position.rs:52. -/
def Game.partial_cmp (a b : Game) : Option Ordering := some (a.cmp b)

/-! ### Provided methods -/

section
variable {α : Type}

/-- `PartialOrd::lt` (operator `<`; provided for annotated_derive.rs:50-54, 70-74, 91-95). -/
def ltOp (pcmp : α → α → Option Ordering) (a b : α) : Bool :=
  match pcmp a b with | some .lt => true | _ => false
/-- `PartialOrd::le` (operator `<=`; provided for annotated_derive.rs:50-54, 70-74, 91-95). -/
def leOp (pcmp : α → α → Option Ordering) (a b : α) : Bool :=
  match pcmp a b with | some .lt | some .eq => true | _ => false
/-- `PartialOrd::gt` (operator `>`; provided for annotated_derive.rs:50-54, 70-74, 91-95). -/
def gtOp (pcmp : α → α → Option Ordering) (a b : α) : Bool :=
  match pcmp a b with | some .gt => true | _ => false
/-- `PartialOrd::ge` (operator `>=`; provided for annotated_derive.rs:50-54, 70-74, 91-95). -/
def geOp (pcmp : α → α → Option Ordering) (a b : α) : Bool :=
  match pcmp a b with | some .gt | some .eq => true | _ => false

/-- `Ord::max` (provided for annotated_derive.rs:57-61, 77-81, 98-102): `max_by(self, other, cmp)`. -/
def maxOp (cmp : α → α → Ordering) (a b : α) : α :=
  match cmp a b with | .lt | .eq => b | .gt => a
/-- `Ord::min` (provided for annotated_derive.rs:57-61, 77-81, 98-102): `min_by(self, other, cmp)`. -/
def minOp (cmp : α → α → Ordering) (a b : α) : α :=
  match cmp a b with | .lt | .eq => a | .gt => b
/-- `Ord::clamp` (provided for annotated_derive.rs:57-61, 77-81, 98-102): `assert!(min <= max)`, then
comparisons with `<` and `>`. -/
def clampOp (pcmp : α → α → Option Ordering) (a min max : α) : Res α :=
  if !leOp pcmp min max then .panic
  else if ltOp pcmp a min then .ok min
  else if gtOp pcmp a max then .ok max
  else .ok a

end
end ShogiCore
