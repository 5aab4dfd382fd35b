import Verif.Model.CApi
import Verif.Model.Position

/- Calls of the exported functions with the values a C program passes.  For a C compiler the types
of include/shogi_core.h are plain integers (`typedef uint8_t Square;` ...), so every byte can be
passed where a `Color`, `PieceKind`, `Square`, `Piece` or `CompactMove` is expected.  Pointer
arguments point to a value of the type they claim to point to. -/

namespace ShogiCore

/-! ### Bytes taken as arguments -/

/-- A byte arriving as a `Color` (color.rs:8-18, `repr(u8)`, 1 and 2): a value of an enum that is
none of its discriminants is undefined behaviour. -/
def Color.arg (v : U8) : Res Color := Color.transmute v
/-- A byte arriving as a `PieceKind` (piece_kind.rs:11-74, `repr(u8)`). -/
def PieceKind.arg (v : U8) : Res PieceKind := PieceKind_from_u8_unchecked v
/-- A byte arriving as a `GameResolution` (game_resolution.rs:7-28, `repr(u8)`). -/
def GameResolution.arg (v : U8) : Res GameResolution := GameResolution.from_u8_unchecked v
/-- A byte arriving as a `Square` (square.rs:11, a `NonZeroU8`): zero is undefined behaviour. -/
def Square.arg (v : U8) : Res Square := do return ⟨← nonzero_new_unchecked v⟩
/-- A byte arriving as a `Piece` (piece.rs:21, a `NonZeroU8`). -/
def Piece.arg (v : U8) : Res Piece := do return ⟨← nonzero_new_unchecked v⟩
/-- A 16-bit word arriving as a `CompactMove` (mv.rs:178, a `NonZeroU16`). -/
def CompactMove.arg (v : U16) : Res CompactMove := do return ⟨← nonzero_new_unchecked v⟩

/-! ### Results as numbers -/

/-- A bitboard handed back (include/shogi_core.h:311-313). -/
def Bitboard.out (b : Bitboard) : List Nat := [b.w0.toNat, b.w1.toNat]
/-- A hand handed back (include/shogi_core.h:414-416). -/
def Hand.out (h : Hand) : List Nat := h.cells.toList.map (·.toNat)
/-- A `bool` handed back (include/shogi_core.h:504). -/
def boolOut (b : Bool) : List Nat := [b.toNat]

/-! ### The calls -/

/-- The exported functions that take something by value, with the raw arguments, except the two
that make a move (include/shogi_core.h:481-1085). -/
inductive CCall
  | Bitboard_bitand (a b : Bitboard) | Bitboard_bitand_assign (a b : Bitboard)
  | Bitboard_bitor (a b : Bitboard) | Bitboard_bitor_assign (a b : Bitboard)
  | Bitboard_bitxor (a b : Bitboard) | Bitboard_bitxor_assign (a b : Bitboard)
  | Bitboard_contains (self : Bitboard) (square : U8)
  | Bitboard_count (self : Bitboard) | Bitboard_flip (self : Bitboard)
  | Bitboard_is_empty (self : Bitboard) | Bitboard_not (a : Bitboard)
  | Bitboard_pop (self : Bitboard) | Bitboard_single (square : U8)
  | Color_flip (self : U8)
  | CompactMove_drop (piece to : U8) | CompactMove_from (self : U16)
  | CompactMove_is_drop (self : U16) | CompactMove_is_promoting (self : U16)
  | CompactMove_normal (src to : U8) (promote : Bool) | CompactMove_to (self : U16)
  | GameResolution_from_u8_unchecked (repr : U8)
  | Game_resolve (self : Game) (resolution : U8)
  | Hand_add (self : Hand) (piece_kind : U8) | Hand_count (self : Hand) (piece_kind : U8)
  | Hand_is_hand_piece (piece_kind : U8) | Hand_remove (self : Hand) (piece_kind : U8)
  | IllegalMoveKind_from_u8_unchecked (repr : U8)
  | PartialGame_resolve (self : PartialGame) (resolution : U8)
  | PartialPosition_hand_of_a_player (self : PartialPosition) (color : U8)
  | PartialPosition_piece_at (self : PartialPosition) (square : U8)
  | PartialPosition_piece_bitboard (self : PartialPosition) (piece : U8)
  | PartialPosition_piece_kind_bitboard (self : PartialPosition) (piece_kind : U8)
  | PartialPosition_player_bitboard (self : PartialPosition) (color : U8)
  | PieceKind_from_u8 (repr : U8) | PieceKind_from_u8_unchecked (repr : U8)
  | PieceKind_promote (self : U8) | PieceKind_unpromote (self : U8)
  | Piece_color (self : U8) | Piece_new (piece_kind color : U8) | Piece_piece_kind (self : U8)
  | Piece_promote (self : U8) | Piece_unpromote (self : U8)
  | Position_hand_of_a_player (self : Position) (color : U8)
  | Position_piece_at (self : Position) (square : U8)
  | Position_piece_bitboard (self : Position) (piece : U8)
  | Position_player_bitboard (self : Position) (color : U8)
  | Square_file (self : U8) | Square_flip (self : U8) | Square_from_u8 (value : U8)
  | Square_from_u8_unchecked (value : U8) | Square_index (self : U8) | Square_new (file rank : U8)
  | Square_new_relative (file rank color : U8) | Square_rank (self : U8)
  | Square_relative_file (self color : U8) | Square_relative_rank (self color : U8)
  | Square_shift (self : U8) (file_delta rank_delta : I8)

/-- The name of the function called (include/shogi_core.h:481-1085). -/
def CCall.name : CCall → String
  | .Bitboard_bitand .. => "Bitboard_bitand" | .Bitboard_bitand_assign .. => "Bitboard_bitand_assign"
  | .Bitboard_bitor .. => "Bitboard_bitor" | .Bitboard_bitor_assign .. => "Bitboard_bitor_assign"
  | .Bitboard_bitxor .. => "Bitboard_bitxor" | .Bitboard_bitxor_assign .. => "Bitboard_bitxor_assign"
  | .Bitboard_contains .. => "Bitboard_contains"
  | .Bitboard_count .. => "Bitboard_count" | .Bitboard_flip .. => "Bitboard_flip"
  | .Bitboard_is_empty .. => "Bitboard_is_empty" | .Bitboard_not .. => "Bitboard_not"
  | .Bitboard_pop .. => "Bitboard_pop" | .Bitboard_single .. => "Bitboard_single"
  | .Color_flip .. => "Color_flip"
  | .CompactMove_drop .. => "CompactMove_drop" | .CompactMove_from .. => "CompactMove_from"
  | .CompactMove_is_drop .. => "CompactMove_is_drop"
  | .CompactMove_is_promoting .. => "CompactMove_is_promoting"
  | .CompactMove_normal .. => "CompactMove_normal" | .CompactMove_to .. => "CompactMove_to"
  | .GameResolution_from_u8_unchecked .. => "GameResolution_from_u8_unchecked"
  | .Game_resolve .. => "Game_resolve"
  | .Hand_add .. => "Hand_add" | .Hand_count .. => "Hand_count"
  | .Hand_is_hand_piece .. => "Hand_is_hand_piece" | .Hand_remove .. => "Hand_remove"
  | .IllegalMoveKind_from_u8_unchecked .. => "IllegalMoveKind_from_u8_unchecked"
  | .PartialGame_resolve .. => "PartialGame_resolve"
  | .PartialPosition_hand_of_a_player .. => "PartialPosition_hand_of_a_player"
  | .PartialPosition_piece_at .. => "PartialPosition_piece_at"
  | .PartialPosition_piece_bitboard .. => "PartialPosition_piece_bitboard"
  | .PartialPosition_piece_kind_bitboard .. => "PartialPosition_piece_kind_bitboard"
  | .PartialPosition_player_bitboard .. => "PartialPosition_player_bitboard"
  | .PieceKind_from_u8 .. => "PieceKind_from_u8"
  | .PieceKind_from_u8_unchecked .. => "PieceKind_from_u8_unchecked"
  | .PieceKind_promote .. => "PieceKind_promote" | .PieceKind_unpromote .. => "PieceKind_unpromote"
  | .Piece_color .. => "Piece_color" | .Piece_new .. => "Piece_new"
  | .Piece_piece_kind .. => "Piece_piece_kind"
  | .Piece_promote .. => "Piece_promote" | .Piece_unpromote .. => "Piece_unpromote"
  | .Position_hand_of_a_player .. => "Position_hand_of_a_player"
  | .Position_piece_at .. => "Position_piece_at"
  | .Position_piece_bitboard .. => "Position_piece_bitboard"
  | .Position_player_bitboard .. => "Position_player_bitboard"
  | .Square_file .. => "Square_file" | .Square_flip .. => "Square_flip"
  | .Square_from_u8 .. => "Square_from_u8"
  | .Square_from_u8_unchecked .. => "Square_from_u8_unchecked"
  | .Square_index .. => "Square_index" | .Square_new .. => "Square_new"
  | .Square_new_relative .. => "Square_new_relative" | .Square_rank .. => "Square_rank"
  | .Square_relative_file .. => "Square_relative_file"
  | .Square_relative_rank .. => "Square_relative_rank" | .Square_shift .. => "Square_shift"

variable [Profile]

/-- A call: arguments are taken as values of the Rust types, the function runs, and the result is
handed back as numbers; functions with a `&mut` argument first the new contents.  The bodies are
those of bitboard.rs:48-520, color.rs:29-35, mv.rs:223-284, game_resolution.rs:36-39,
hand.rs:106-163, illegal_move_kind.rs:59-62, piece.rs:48-113, piece_kind.rs:160-215,
position.rs:30-77, 168-266, 511-667 and square.rs:19-212. -/
def CCall.exec : CCall → Res (List Nat)
  | .Bitboard_bitand a b => .ok (ShogiCore.Bitboard_bitand a b).out
  | .Bitboard_bitand_assign a b => .ok (ShogiCore.Bitboard_bitand_assign a b).out
  | .Bitboard_bitor a b => .ok (ShogiCore.Bitboard_bitor a b).out
  | .Bitboard_bitor_assign a b => .ok (ShogiCore.Bitboard_bitor_assign a b).out
  | .Bitboard_bitxor a b => .ok (ShogiCore.Bitboard_bitxor a b).out
  | .Bitboard_bitxor_assign a b => .ok (ShogiCore.Bitboard_bitxor_assign a b).out
  | .Bitboard_contains b s => do return boolOut (← b.contains (← Square.arg s))
  | .Bitboard_count b => do return [(← b.count).toNat]
  | .Bitboard_flip b => .ok b.flip.out
  | .Bitboard_is_empty b => .ok (boolOut b.is_empty)
  | .Bitboard_not b => .ok (ShogiCore.Bitboard_not b).out
  | .Bitboard_pop b => do
    let (b, s) ← ShogiCore.Bitboard_pop b
    return b.out ++ [s.val.toNat]
  | .Bitboard_single s => do return (← ShogiCore.Bitboard_single (← Square.arg s)).out
  | .Color_flip c => do return [(← (← Color.arg c).flip).toU8.toNat]
  | .CompactMove_drop p t => do
    return [(← CompactMove.drop (← Piece.arg p) (← Square.arg t)).val.toNat]
  | .CompactMove_from m => do return [(← ShogiCore.CompactMove_from (← CompactMove.arg m)).val.toNat]
  | .CompactMove_is_drop m => do return boolOut (← CompactMove.arg m).is_drop
  | .CompactMove_is_promoting m => do return boolOut (← CompactMove.arg m).is_promoting
  | .CompactMove_normal s t p => do
    return [(← CompactMove.normal (← Square.arg s) (← Square.arg t) p).val.toNat]
  | .CompactMove_to m => do return [(← (← CompactMove.arg m).to).val.toNat]
  | .GameResolution_from_u8_unchecked v => do
    return [(← GameResolution.from_u8_unchecked v).toU8.toNat]
  | .Game_resolve g r => do return [(g.resolve (← GameResolution.arg r)).resolution.val.toNat]
  | .Hand_add h k => do
    let (h, r) ← h.Hand_add (← PieceKind.arg k)
    return h.out ++ boolOut r
  | .Hand_count h k => do return [(← h.Hand_count (← PieceKind.arg k)).toNat]
  | .Hand_is_hand_piece k => do return boolOut (ShogiCore.Hand_is_hand_piece (← PieceKind.arg k))
  | .Hand_remove h k => do
    let (h, r) ← h.Hand_remove (← PieceKind.arg k)
    return h.out ++ boolOut r
  | .IllegalMoveKind_from_u8_unchecked v => do
    return [(← IllegalMoveKind.from_u8_unchecked v).toU8.toNat]
  | .PartialGame_resolve g r => do
    return [(g.resolve (← GameResolution.arg r)).resolution.val.toNat]
  | .PartialPosition_hand_of_a_player p c => do return (← p.hand_of_a_player (← Color.arg c)).out
  | .PartialPosition_piece_at p s => do
    return [(← p.PartialPosition_piece_at (← Square.arg s)).val.toNat]
  | .PartialPosition_piece_bitboard p x => do return (← p.piece_bitboard (← Piece.arg x)).out
  | .PartialPosition_piece_kind_bitboard p k => do
    return (← p.piece_kind_bitboard (← PieceKind.arg k)).out
  | .PartialPosition_player_bitboard p c => do return (← p.player_bitboard (← Color.arg c)).out
  | .PieceKind_from_u8 v => do return [(← ShogiCore.PieceKind_from_u8 v).val.toNat]
  | .PieceKind_from_u8_unchecked v => do
    return [(← ShogiCore.PieceKind_from_u8_unchecked v).toU8.toNat]
  | .PieceKind_promote k => do return [(ShogiCore.PieceKind_promote (← PieceKind.arg k)).val.toNat]
  | .PieceKind_unpromote k => do
    return [(ShogiCore.PieceKind_unpromote (← PieceKind.arg k)).val.toNat]
  | .Piece_color x => do return [(← (← Piece.arg x).color).toU8.toNat]
  | .Piece_new k c => do
    return [(← ShogiCore.Piece_new (← PieceKind.arg k) (← Color.arg c)).val.toNat]
  | .Piece_piece_kind x => do return [(← (← Piece.arg x).piece_kind).toU8.toNat]
  | .Piece_promote x => do return [(← ShogiCore.Piece_promote (← Piece.arg x)).val.toNat]
  | .Piece_unpromote x => do return [(← ShogiCore.Piece_unpromote (← Piece.arg x)).val.toNat]
  | .Position_hand_of_a_player p c => do return (← p.hand_of_a_player (← Color.arg c)).out
  | .Position_piece_at p s => do return [(← p.Position_piece_at (← Square.arg s)).val.toNat]
  | .Position_piece_bitboard p x => do return (← p.piece_bitboard (← Piece.arg x)).out
  | .Position_player_bitboard p c => do return (← p.player_bitboard (← Color.arg c)).out
  | .Square_file s => do return [(← (← Square.arg s).file).toNat]
  | .Square_flip s => do return [(← (← Square.arg s).flip).val.toNat]
  | .Square_from_u8 v => .ok [(OptionSquare.ofOption (Square.from_u8 v)).val.toNat]
  | .Square_from_u8_unchecked v => do return [(← ShogiCore.Square_from_u8_unchecked v).val.toNat]
  | .Square_index s => do return [(← (← Square.arg s).index).toNat]
  | .Square_new f r => do return [(← ShogiCore.Square_new f r).val.toNat]
  | .Square_new_relative f r c => do
    return [(← ShogiCore.Square_new_relative f r (← Color.arg c)).val.toNat]
  | .Square_rank s => do return [(← (← Square.arg s).rank).toNat]
  | .Square_relative_file s c => do
    return [(← (← Square.arg s).relative_file (← Color.arg c)).toNat]
  | .Square_relative_rank s c => do
    return [(← (← Square.arg s).relative_rank (← Color.arg c)).toNat]
  | .Square_shift s f r => do
    return [(OptionSquare.ofOption (← (← Square.arg s).shift f r)).val.toNat]

/-- position.rs:760-765 `PartialPosition_make_compact_move` called with a raw word. -/
def PartialPosition.callMove (self : PartialPosition) (mv : U16) : Res (PartialPosition × Bool) := do
  self.make_compact_move (← CompactMove.arg mv)

/-- position.rs:327-332 `Position_make_compact_move` called with a raw word. -/
def Position.callMove (self : Position) (mv : U16) : Res (Position × Bool) := do
  self.make_compact_move (← CompactMove.arg mv)

/-- A series of calls of `PartialPosition_make_compact_move` (position.rs:760-765) with raw words,
with the answers. -/
def PartialPosition.callMoves : PartialPosition → List U16 → Res (PartialPosition × List Bool)
  | p, [] => .ok (p, [])
  | p, v :: vs => do
    let (p, r) ← p.callMove v
    let (p, rs) ← p.callMoves vs
    return (p, r :: rs)

end ShogiCore
