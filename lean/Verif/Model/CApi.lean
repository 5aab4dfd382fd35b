import Verif.Model.Position

/- Models the C-interface functions that are more than an exported alias of a Rust
function. -/

namespace ShogiCore

variable [Profile]

/-- piece.rs:99-101 `Piece_promote`. -/
def Piece_promote (self : Piece) : Res OptionPiece := do return OptionPiece.ofOption (← self.promote)
/-- piece.rs:113-115 `Piece_unpromote`. -/
def Piece_unpromote (self : Piece) : Res OptionPiece := do
  return OptionPiece.ofOption (← self.unpromote)
/-- mv.rs:261-263 `CompactMove_from`. -/
def CompactMove_from (self : CompactMove) : Res OptionSquare := do
  return OptionSquare.ofOption (← self.src)
/-- bitboard.rs:175-177 `Bitboard_pop`. -/
def Bitboard_pop (self : Bitboard) : Res (Bitboard × OptionSquare) := do
  let (self, r) ← self.pop
  return (self, OptionSquare.ofOption r)
/-- piece_kind.rs:175-177 `PieceKind_from_u8`. -/
def PieceKind_from_u8 (repr : U8) : Res OptionPieceKind := do
  return OptionPieceKind.ofOption (← PieceKind.from_u8 repr)
omit [Profile] in
/-- piece_kind.rs:205-207 `PieceKind_promote`. -/
def PieceKind_promote (self : PieceKind) : OptionPieceKind := OptionPieceKind.ofOption self.promote
omit [Profile] in
/-- piece_kind.rs:212-214 `PieceKind_unpromote`. -/
def PieceKind_unpromote (self : PieceKind) : OptionPieceKind :=
  OptionPieceKind.ofOption self.unpromote
/-- square.rs:31-33 `Square_new`. -/
def Square_new (file rank : U8) : Res OptionSquare := do
  return OptionSquare.ofOption (← Square.new file rank)
/-- square.rs:62-64 `Square_new_relative`. -/
def Square_new_relative (file rank : U8) (color : Color) : Res OptionSquare := do
  return OptionSquare.ofOption (← Square.new_relative file rank color)

omit [Profile] in
/-- bitboard.rs:34-36 `Bitboard_empty`. -/
def Bitboard_empty : Bitboard := Bitboard.empty
/-- bitboard.rs:65-67 `Bitboard_single`. -/
def Bitboard_single (square : Square) : Res Bitboard := Bitboard.single square
omit [Profile] in
/-- bitboard.rs:453-455 `Bitboard_bitand`. -/
def Bitboard_bitand (a b : Bitboard) : Bitboard := a.bitand b
omit [Profile] in
/-- bitboard.rs:457-459 `Bitboard_bitand_assign` (new value of `*a`). -/
def Bitboard_bitand_assign (a b : Bitboard) : Bitboard := a.bitand_assign b
omit [Profile] in
/-- bitboard.rs:462-464 `Bitboard_bitor`. -/
def Bitboard_bitor (a b : Bitboard) : Bitboard := a.bitor b
omit [Profile] in
/-- bitboard.rs:466-468 `Bitboard_bitor_assign`. -/
def Bitboard_bitor_assign (a b : Bitboard) : Bitboard := a.bitor_assign b
omit [Profile] in
/-- bitboard.rs:471-473 `Bitboard_bitxor`. -/
def Bitboard_bitxor (a b : Bitboard) : Bitboard := a.bitxor b
omit [Profile] in
/-- bitboard.rs:475-477 `Bitboard_bitxor_assign`. -/
def Bitboard_bitxor_assign (a b : Bitboard) : Bitboard := a.bitxor_assign b
omit [Profile] in
/-- bitboard.rs:518-520 `Bitboard_not`. -/
def Bitboard_not (a : Bitboard) : Bitboard := a.not
/-- piece.rs:48-50 `Piece_new`. -/
def Piece_new (piece_kind : PieceKind) (color : Color) : Res Piece := Piece.new piece_kind color
omit [Profile] in
/-- piece_kind.rs:198-200 `PieceKind_from_u8_unchecked` (transmute, no range check of its own). -/
def PieceKind_from_u8_unchecked (repr : U8) : Res PieceKind :=
  match PieceKind.all.find? (fun k => k.toU8 == repr) with
  | some k => .ok k
  | none => .ub
omit [Profile] in
/-- square.rs:186-191 `Square_from_u8_unchecked`. -/
def Square_from_u8_unchecked (value : U8) : Res Square := do
  if !Square.inRange value then unreachable_unchecked else
  return ⟨← nonzero_new_unchecked value⟩
omit [Profile] in
/-- hand.rs:161-163 `Hand_is_hand_piece`. -/
def Hand_is_hand_piece (piece_kind : PieceKind) : Bool := Hand.is_hand_piece piece_kind
/-- position.rs:483-485 `PartialPosition_startpos`: the new contents of `*buf`, whatever was
there (`none`: uninitialised). -/
def PartialPosition_startpos (_buf : Option PartialPosition) : Res (Option PartialPosition) := do
  return some (← PartialPosition.startpos)

end ShogiCore
