import Verif.Model.CApi
import Verif.Model.GameResolution

/- Models include/shogi_core.h as a C compiler sees it (typedefs, structs, enumerators, constants,
prototypes; without the comments, and with `DEFINE_ALLOC` and `DEFINE_EXPERIMENTAL` defined), and
the signatures of the `extern "C"` functions and the representation of their types as rustc sees
them. -/

namespace ShogiCore

/-! ### The header -/

/-- The types of the header (include/shogi_core.h:26-1083). -/
inductive HType
  | void | bool | u8 | u16 | u64 | i8
  /-- a typedef name -/
  | named (n : String)
  /-- `struct s` -/
  | struct (s : String)
  /-- an array member `t x[n]` -/
  | arr (n : Nat) (t : HType)
  /-- `t *`, or `const t *` if `ro` -/
  | ptr (ro : Bool) (t : HType)
  deriving DecidableEq, Repr

/-- A prototype: name, parameters, result type (include/shogi_core.h:481-1083). -/
structure HSig where
  name : String
  params : List (String × HType)
  ret : HType
  deriving DecidableEq, Repr

/-- The types of the parameters (include/shogi_core.h:481-1083). -/
def HSig.args (h : HSig) : List HType := h.params.map Prod.snd

/-- include/shogi_core.h:52, 92, 146, 282, 288, 291, 296, 302, 313, 321, 345, 356, 372, 404, 416,
437, 445, 464, 479: the typedefs, in order. -/
def typedefs : List (String × HType) := [
  ("Color", .u8), ("GameResolution", .u8), ("IllegalMoveKind", .u8), ("PieceKind", .u8),
  ("Game", .struct "Game"), ("Option_Square", .struct "Option_Square"),
  ("PartialGame", .struct "PartialGame"), ("Position", .struct "Position"),
  ("Bitboard", .struct "Bitboard"), ("Square", .u8), ("OptionSquare", .u8), ("CompactMove", .u16),
  ("Piece", .u8), ("OptionGameResolution", .u8), ("Hand", .struct "Hand"), ("OptionPiece", .u8),
  ("OptionCompactMove", .u16), ("PartialPosition", .struct "PartialPosition"),
  ("OptionPieceKind", .u8)]

/-- include/shogi_core.h:311-313, 414-416, 455-464: the structs that are defined, with their
members.  The others (lines 288, 291, 296, 302) are incomplete. -/
def structs : List (String × List (String × HType)) := [
  ("Bitboard", [("_0", .arr 2 .u64)]),
  ("Hand", [("_0", .arr 8 .u8)]),
  ("PartialPosition", [("side", .named "Color"), ("ply", .u16), ("hands", .arr 2 (.struct "Hand")),
    ("board", .arr 81 (.named "OptionPiece")), ("player_bb", .arr 2 (.struct "Bitboard")),
    ("piece_bb", .arr 14 (.struct "Bitboard")), ("last_move", .named "OptionCompactMove"),
    ("king_square", .arr 2 (.named "OptionSquare"))])]

/-- include/shogi_core.h:38-51, 60-91, 102-145, 154-281: the enumerations and their enumerators. -/
def enums : List (String × List (String × Nat)) := [
  ("Color", [("Black", 1), ("White", 2)]),
  ("GameResolution", [("BlackWins", 1), ("WhiteWins", 2), ("Draw", 3), ("Rematch", 4),
    ("Aborted", 5)]),
  ("IllegalMoveKind", [("TwoPawns", 1), ("IgnoredCheck", 2), ("DropPawnMate", 3), ("DropStuck", 4),
    ("NormalStuck", 5), ("GameFinished", 6), ("IncorrectMove", 7)]),
  ("PieceKind", [("Pawn", 1), ("Lance", 2), ("Knight", 3), ("Silver", 4), ("Gold", 5),
    ("Bishop", 6), ("Rook", 7), ("King", 8), ("ProPawn", 9), ("ProLance", 10), ("ProKnight", 11),
    ("ProSilver", 12), ("ProBishop", 13), ("ProRook", 14)])]

/-- include/shogi_core.h:26, 29, 334, 388, 427: the constants. -/
def defines : List (String × Nat) := [
  ("Color_NUM", 2), ("PieceKind_OPTION_NUM", 15), ("Square_NUM", 81), ("Piece_NUM", 31),
  ("Hand_NUM_HAND_PIECES", 7)]

/-- include/shogi_core.h:481-1083: the prototypes, in order. -/
def prototypes : List HSig := [
  ⟨"Bitboard_bitand", [("a", .struct "Bitboard"), ("b", .struct "Bitboard")], .struct "Bitboard"⟩,
  ⟨"Bitboard_bitand_assign", [("a", .ptr false (.struct "Bitboard")), ("b", .struct "Bitboard")],
    .void⟩,
  ⟨"Bitboard_bitor", [("a", .struct "Bitboard"), ("b", .struct "Bitboard")], .struct "Bitboard"⟩,
  ⟨"Bitboard_bitor_assign", [("a", .ptr false (.struct "Bitboard")), ("b", .struct "Bitboard")],
    .void⟩,
  ⟨"Bitboard_bitxor", [("a", .struct "Bitboard"), ("b", .struct "Bitboard")], .struct "Bitboard"⟩,
  ⟨"Bitboard_bitxor_assign", [("a", .ptr false (.struct "Bitboard")), ("b", .struct "Bitboard")],
    .void⟩,
  ⟨"Bitboard_contains", [("self", .struct "Bitboard"), ("square", .named "Square")], .bool⟩,
  ⟨"Bitboard_count", [("self", .struct "Bitboard")], .u8⟩,
  ⟨"Bitboard_empty", [], .struct "Bitboard"⟩,
  ⟨"Bitboard_flip", [("self", .struct "Bitboard")], .struct "Bitboard"⟩,
  ⟨"Bitboard_is_empty", [("self", .struct "Bitboard")], .bool⟩,
  ⟨"Bitboard_not", [("a", .struct "Bitboard")], .struct "Bitboard"⟩,
  ⟨"Bitboard_pop", [("self", .ptr false (.struct "Bitboard"))], .named "OptionSquare"⟩,
  ⟨"Bitboard_single", [("square", .named "Square")], .struct "Bitboard"⟩,
  ⟨"Color_flip", [("self", .named "Color")], .named "Color"⟩,
  ⟨"CompactMove_drop", [("piece", .named "Piece"), ("to", .named "Square")], .named "CompactMove"⟩,
  ⟨"CompactMove_from", [("self", .named "CompactMove")], .named "OptionSquare"⟩,
  ⟨"CompactMove_is_drop", [("self", .named "CompactMove")], .bool⟩,
  ⟨"CompactMove_is_promoting", [("self", .named "CompactMove")], .bool⟩,
  ⟨"CompactMove_normal", [("from", .named "Square"), ("to", .named "Square"), ("promote", .bool)],
    .named "CompactMove"⟩,
  ⟨"CompactMove_to", [("self", .named "CompactMove")], .named "Square"⟩,
  ⟨"GameResolution_from_u8_unchecked", [("repr", .u8)], .named "GameResolution"⟩,
  ⟨"Game_position", [("self", .ptr true (.struct "Game"))], .ptr true (.struct "Position")⟩,
  ⟨"Game_resolution", [("self", .ptr true (.struct "Game"))], .named "OptionGameResolution"⟩,
  ⟨"Game_resolve", [("self", .ptr false (.struct "Game")), ("resolution",
    .named "GameResolution")], .void⟩,
  ⟨"Game_unresolve", [("self", .ptr false (.struct "Game"))], .void⟩,
  ⟨"Hand_add", [("self", .ptr false (.struct "Hand")), ("piece_kind", .named "PieceKind")], .bool⟩,
  ⟨"Hand_count", [("self", .struct "Hand"), ("piece_kind", .named "PieceKind")], .u8⟩,
  ⟨"Hand_is_hand_piece", [("piece_kind", .named "PieceKind")], .bool⟩,
  ⟨"Hand_new", [], .struct "Hand"⟩,
  ⟨"Hand_remove", [("self", .ptr false (.struct "Hand")), ("piece_kind", .named "PieceKind")],
    .bool⟩,
  ⟨"IllegalMoveKind_from_u8_unchecked", [("repr", .u8)], .named "IllegalMoveKind"⟩,
  ⟨"PartialGame_position", [("self", .ptr true (.struct "PartialGame"))],
    .ptr true (.struct "PartialPosition")⟩,
  ⟨"PartialGame_resolution", [("self", .ptr true (.struct "PartialGame"))],
    .named "OptionGameResolution"⟩,
  ⟨"PartialGame_resolve", [("self", .ptr false (.struct "PartialGame")), ("resolution",
    .named "GameResolution")], .void⟩,
  ⟨"PartialGame_unresolve", [("self", .ptr false (.struct "PartialGame"))], .void⟩,
  ⟨"PartialPosition_hand_of_a_player", [("self", .ptr true (.struct "PartialPosition")), ("color",
    .named "Color")], .struct "Hand"⟩,
  ⟨"PartialPosition_last_compact_move", [("self", .ptr true (.struct "PartialPosition"))],
    .named "OptionCompactMove"⟩,
  ⟨"PartialPosition_make_compact_move", [("self", .ptr false (.struct "PartialPosition")), ("mv",
    .named "CompactMove")], .bool⟩,
  ⟨"PartialPosition_occupied_bitboard", [("self", .ptr true (.struct "PartialPosition"))],
    .struct "Bitboard"⟩,
  ⟨"PartialPosition_piece_at", [("self", .ptr true (.struct "PartialPosition")), ("square",
    .named "Square")], .named "OptionPiece"⟩,
  ⟨"PartialPosition_piece_bitboard", [("self", .ptr true (.struct "PartialPosition")), ("piece",
    .named "Piece")], .struct "Bitboard"⟩,
  ⟨"PartialPosition_piece_kind_bitboard", [("self", .ptr true (.struct "PartialPosition")),
    ("piece_kind", .named "PieceKind")], .struct "Bitboard"⟩,
  ⟨"PartialPosition_player_bitboard", [("self", .ptr true (.struct "PartialPosition")), ("color",
    .named "Color")], .struct "Bitboard"⟩,
  ⟨"PartialPosition_ply", [("self", .ptr true (.struct "PartialPosition"))], .u16⟩,
  ⟨"PartialPosition_side_to_move", [("self", .ptr true (.struct "PartialPosition"))],
    .named "Color"⟩,
  ⟨"PartialPosition_startpos", [("buf", .ptr false (.struct "PartialPosition"))], .void⟩,
  ⟨"PartialPosition_to_sfen_c", [("self", .ptr true (.struct "PartialPosition")), ("ptr",
    .ptr false .u8)], .void⟩,
  ⟨"PartialPosition_vacant_bitboard", [("self", .ptr true (.struct "PartialPosition"))],
    .struct "Bitboard"⟩,
  ⟨"PieceKind_from_u8", [("repr", .u8)], .named "OptionPieceKind"⟩,
  ⟨"PieceKind_from_u8_unchecked", [("repr", .u8)], .named "PieceKind"⟩,
  ⟨"PieceKind_promote", [("self", .named "PieceKind")], .named "OptionPieceKind"⟩,
  ⟨"PieceKind_unpromote", [("self", .named "PieceKind")], .named "OptionPieceKind"⟩,
  ⟨"Piece_color", [("self", .named "Piece")], .named "Color"⟩,
  ⟨"Piece_new", [("piece_kind", .named "PieceKind"), ("color", .named "Color")], .named "Piece"⟩,
  ⟨"Piece_piece_kind", [("self", .named "Piece")], .named "PieceKind"⟩,
  ⟨"Piece_promote", [("self", .named "Piece")], .named "OptionPiece"⟩,
  ⟨"Piece_unpromote", [("self", .named "Piece")], .named "OptionPiece"⟩,
  ⟨"Position_destruct", [("ptr", .ptr false (.struct "Position"))], .void⟩,
  ⟨"Position_hand_of_a_player", [("self", .ptr true (.struct "Position")), ("color",
    .named "Color")], .struct "Hand"⟩,
  ⟨"Position_initial_position", [("self", .ptr true (.struct "Position"))],
    .ptr true (.struct "PartialPosition")⟩,
  ⟨"Position_inner", [("self", .ptr true (.struct "Position"))],
    .ptr true (.struct "PartialPosition")⟩,
  ⟨"Position_last_compact_move", [("self", .ptr true (.struct "Position"))],
    .named "OptionCompactMove"⟩,
  ⟨"Position_make_compact_move", [("self", .ptr false (.struct "Position")), ("mv",
    .named "CompactMove")], .bool⟩,
  ⟨"Position_occupied_bitboard", [("self", .ptr true (.struct "Position"))], .struct "Bitboard"⟩,
  ⟨"Position_piece_at", [("self", .ptr true (.struct "Position")), ("square", .named "Square")],
    .named "OptionPiece"⟩,
  ⟨"Position_piece_bitboard", [("self", .ptr true (.struct "Position")), ("piece",
    .named "Piece")], .struct "Bitboard"⟩,
  ⟨"Position_player_bitboard", [("self", .ptr true (.struct "Position")), ("color",
    .named "Color")], .struct "Bitboard"⟩,
  ⟨"Position_ply", [("self", .ptr true (.struct "Position"))], .u16⟩,
  ⟨"Position_side_to_move", [("self", .ptr true (.struct "Position"))], .named "Color"⟩,
  ⟨"Position_startpos", [], .ptr false (.struct "Position")⟩,
  ⟨"Position_to_sfen_c", [("self", .ptr true (.struct "Position")), ("ptr", .ptr false .u8)],
    .void⟩,
  ⟨"Position_vacant_bitboard", [("self", .ptr true (.struct "Position"))], .struct "Bitboard"⟩,
  ⟨"Square_file", [("self", .named "Square")], .u8⟩,
  ⟨"Square_flip", [("self", .named "Square")], .named "Square"⟩,
  ⟨"Square_from_u8", [("value", .u8)], .struct "Option_Square"⟩,
  ⟨"Square_from_u8_unchecked", [("value", .u8)], .named "Square"⟩,
  ⟨"Square_index", [("self", .named "Square")], .u8⟩,
  ⟨"Square_new", [("file", .u8), ("rank", .u8)], .named "OptionSquare"⟩,
  ⟨"Square_new_relative", [("file", .u8), ("rank", .u8), ("color", .named "Color")],
    .named "OptionSquare"⟩,
  ⟨"Square_rank", [("self", .named "Square")], .u8⟩,
  ⟨"Square_relative_file", [("self", .named "Square"), ("color", .named "Color")], .u8⟩,
  ⟨"Square_relative_rank", [("self", .named "Square"), ("color", .named "Color")], .u8⟩,
  ⟨"Square_shift", [("self", .named "Square"), ("file_delta", .i8), ("rank_delta", .i8)],
    .struct "Option_Square"⟩]

/-! ### The library -/

/-- The types in the signatures of the exported functions (bitboard.rs:453 and so on) and in the
types they mention. -/
inductive RType
  | unit | bool | u8 | u16 | u64 | i8 | nonzero8 | nonzero16
  /-- a type of the crate -/
  | path (n : String)
  /-- `Option<t>` -/
  | option (t : RType)
  /-- `MaybeUninit<t>` -/
  | uninit (t : RType)
  /-- `[t; n]` -/
  | arr (n : Nat) (t : RType)
  /-- `&t`, or `&mut t` if `rw` -/
  | ref (rw : Bool) (t : RType)
  /-- `*mut t` -/
  | raw (t : RType)
  deriving DecidableEq, Repr

/-- How a type of the crate is defined (the `#[repr]`s of color.rs:7 and so on). -/
inductive RDef
  /-- `#[repr(u8)] enum` -/
  | enum8
  /-- `#[repr(transparent)] struct` -/
  | transparent (t : RType)
  /-- `#[repr(C)] struct` -/
  | reprC (fs : List (String × RType))
  /-- no `#[repr]`: the compiler lays it out as it likes -/
  | reprRust
  deriving DecidableEq, Repr

/-- The signature of an exported function; `alloc`: only with feature `alloc`
(position.rs:19, 107). -/
structure RSig where
  name : String
  params : List (String × RType)
  ret : RType
  alloc : Bool
  deriving DecidableEq, Repr

/-- The types of the parameters (bitboard.rs:453 and so on). -/
def RSig.args (r : RSig) : List RType := r.params.map Prod.snd

/-- color.rs:7-9, game_resolution.rs:5-7, illegal_move_kind.rs:7-9, piece_kind.rs:7-9,
square.rs:9-11, 286-288, piece.rs:18-21, 29-31, piece_kind.rs:318-319, mv.rs:176-178, 303-305,
game_resolution.rs:56-58, bitboard.rs:9-12, hand.rs:10-12, position.rs:375-385, 13-17, 57-61,
100-105. -/
def rustTypes : List (String × RDef) := [
  ("Color", .enum8), ("GameResolution", .enum8), ("IllegalMoveKind", .enum8),
  ("PieceKind", .enum8),
  ("Square", .transparent .nonzero8), ("OptionSquare", .transparent .u8),
  ("Piece", .transparent .nonzero8), ("OptionPiece", .transparent .u8),
  ("OptionPieceKind", .transparent .u8), ("CompactMove", .transparent .nonzero16),
  ("OptionCompactMove", .transparent .u16), ("OptionGameResolution", .transparent .u8),
  ("Bitboard", .reprC [("0", .arr 2 .u64)]), ("Hand", .reprC [("0", .arr 8 .u8)]),
  ("PartialPosition", .reprC [("side", .path "Color"), ("ply", .u16),
    ("hands", .arr 2 (.path "Hand")), ("board", .arr 81 (.path "OptionPiece")),
    ("player_bb", .arr 2 (.path "Bitboard")), ("piece_bb", .arr 14 (.path "Bitboard")),
    ("last_move", .path "OptionCompactMove"), ("king_square", .arr 2 (.path "OptionSquare"))]),
  ("Game", .reprRust), ("PartialGame", .reprRust), ("Position", .reprRust)]

/-- The identifiers of color.rs:9-18. -/
def Color.ident : Color → String
  | .Black => "Black" | .White => "White"

/-- The identifiers of game_resolution.rs:7-28. -/
def GameResolution.ident : GameResolution → String
  | .BlackWins => "BlackWins" | .WhiteWins => "WhiteWins" | .Draw => "Draw"
  | .Rematch => "Rematch" | .Aborted => "Aborted"

/-- The identifiers of illegal_move_kind.rs:9-38. -/
def IllegalMoveKind.ident : IllegalMoveKind → String
  | .TwoPawns => "TwoPawns" | .IgnoredCheck => "IgnoredCheck" | .DropPawnMate => "DropPawnMate"
  | .DropStuck => "DropStuck" | .NormalStuck => "NormalStuck" | .GameFinished => "GameFinished"
  | .IncorrectMove => "IncorrectMove"

/-- The identifiers of piece_kind.rs:9-108. -/
def PieceKind.ident : PieceKind → String
  | .Pawn => "Pawn" | .Lance => "Lance" | .Knight => "Knight" | .Silver => "Silver"
  | .Gold => "Gold" | .Bishop => "Bishop" | .Rook => "Rook" | .King => "King"
  | .ProPawn => "ProPawn" | .ProLance => "ProLance" | .ProKnight => "ProKnight"
  | .ProSilver => "ProSilver" | .ProBishop => "ProBishop" | .ProRook => "ProRook"

/-- piece.rs:153 `Piece::NUM`. -/
def Piece.NUM : Nat := 31

/-- The exported functions: bitboard.rs:453, 457, 462, 466, 471, 475, 112, 80, 34, 132, 98, 518,
175, 65; color.rs:30; game_resolution.rs:37; hand.rs:107, 133, 161, 24, 120;
illegal_move_kind.rs:60; mv.rs:240, 261, 282, 275, 224, 267; piece.rs:78, 48, 71, 99, 113;
piece_kind.rs:175, 198, 205, 212; position.rs:24, 46, 30, 36, 67, 89, 73, 79, 512, 693, 762, 618,
572, 649, 665, 632, 538, 499, 483, 831, 625, 139, 169, 119, 112, 304, 329, 236, 215, 264, 248,
194, 163, 130, 358, 242; square.rs:75, 139, 155, 186, 104, 31, 62, 89, 121, 111, 203. -/
def exports : List RSig := [
  ⟨"Bitboard_bitand", [("a", .path "Bitboard"), ("b", .path "Bitboard")], .path "Bitboard", false⟩,
  ⟨"Bitboard_bitand_assign", [("a", .ref true (.path "Bitboard")), ("b", .path "Bitboard")],
    .unit, false⟩,
  ⟨"Bitboard_bitor", [("a", .path "Bitboard"), ("b", .path "Bitboard")], .path "Bitboard", false⟩,
  ⟨"Bitboard_bitor_assign", [("a", .ref true (.path "Bitboard")), ("b", .path "Bitboard")], .unit,
    false⟩,
  ⟨"Bitboard_bitxor", [("a", .path "Bitboard"), ("b", .path "Bitboard")], .path "Bitboard", false⟩,
  ⟨"Bitboard_bitxor_assign", [("a", .ref true (.path "Bitboard")), ("b", .path "Bitboard")],
    .unit, false⟩,
  ⟨"Bitboard_contains", [("self", .path "Bitboard"), ("square", .path "Square")], .bool, false⟩,
  ⟨"Bitboard_count", [("self", .path "Bitboard")], .u8, false⟩,
  ⟨"Bitboard_empty", [], .path "Bitboard", false⟩,
  ⟨"Bitboard_flip", [("self", .path "Bitboard")], .path "Bitboard", false⟩,
  ⟨"Bitboard_is_empty", [("self", .path "Bitboard")], .bool, false⟩,
  ⟨"Bitboard_not", [("a", .path "Bitboard")], .path "Bitboard", false⟩,
  ⟨"Bitboard_pop", [("self", .ref true (.path "Bitboard"))], .path "OptionSquare", false⟩,
  ⟨"Bitboard_single", [("square", .path "Square")], .path "Bitboard", false⟩,
  ⟨"Color_flip", [("self", .path "Color")], .path "Color", false⟩,
  ⟨"CompactMove_drop", [("piece", .path "Piece"), ("to", .path "Square")], .path "CompactMove",
    false⟩,
  ⟨"CompactMove_from", [("self", .path "CompactMove")], .path "OptionSquare", false⟩,
  ⟨"CompactMove_is_drop", [("self", .path "CompactMove")], .bool, false⟩,
  ⟨"CompactMove_is_promoting", [("self", .path "CompactMove")], .bool, false⟩,
  ⟨"CompactMove_normal", [("from", .path "Square"), ("to", .path "Square"), ("promote", .bool)],
    .path "CompactMove", false⟩,
  ⟨"CompactMove_to", [("self", .path "CompactMove")], .path "Square", false⟩,
  ⟨"GameResolution_from_u8_unchecked", [("repr", .u8)], .path "GameResolution", false⟩,
  ⟨"Game_position", [("self", .ref false (.path "Game"))], .ref false (.path "Position"), true⟩,
  ⟨"Game_resolution", [("self", .ref false (.path "Game"))], .path "OptionGameResolution", true⟩,
  ⟨"Game_resolve", [("self", .ref true (.path "Game")), ("resolution", .path "GameResolution")],
    .unit, true⟩,
  ⟨"Game_unresolve", [("self", .ref true (.path "Game"))], .unit, true⟩,
  ⟨"Hand_add", [("self", .ref true (.path "Hand")), ("piece_kind", .path "PieceKind")], .bool,
    false⟩,
  ⟨"Hand_count", [("self", .path "Hand"), ("piece_kind", .path "PieceKind")], .u8, false⟩,
  ⟨"Hand_is_hand_piece", [("piece_kind", .path "PieceKind")], .bool, false⟩,
  ⟨"Hand_new", [], .path "Hand", false⟩,
  ⟨"Hand_remove", [("self", .ref true (.path "Hand")), ("piece_kind", .path "PieceKind")], .bool,
    false⟩,
  ⟨"IllegalMoveKind_from_u8_unchecked", [("repr", .u8)], .path "IllegalMoveKind", false⟩,
  ⟨"PartialGame_position", [("self", .ref false (.path "PartialGame"))],
    .ref false (.path "PartialPosition"), false⟩,
  ⟨"PartialGame_resolution", [("self", .ref false (.path "PartialGame"))],
    .path "OptionGameResolution", false⟩,
  ⟨"PartialGame_resolve", [("self", .ref true (.path "PartialGame")), ("resolution",
    .path "GameResolution")], .unit, false⟩,
  ⟨"PartialGame_unresolve", [("self", .ref true (.path "PartialGame"))], .unit, false⟩,
  ⟨"PartialPosition_hand_of_a_player", [("self", .ref false (.path "PartialPosition")), ("color",
    .path "Color")], .path "Hand", false⟩,
  ⟨"PartialPosition_last_compact_move", [("self", .ref false (.path "PartialPosition"))],
    .path "OptionCompactMove", false⟩,
  ⟨"PartialPosition_make_compact_move", [("self", .ref true (.path "PartialPosition")), ("mv",
    .path "CompactMove")], .bool, false⟩,
  ⟨"PartialPosition_occupied_bitboard", [("self", .ref false (.path "PartialPosition"))],
    .path "Bitboard", false⟩,
  ⟨"PartialPosition_piece_at", [("self", .ref false (.path "PartialPosition")), ("square",
    .path "Square")], .path "OptionPiece", false⟩,
  ⟨"PartialPosition_piece_bitboard", [("self", .ref false (.path "PartialPosition")), ("piece",
    .path "Piece")], .path "Bitboard", false⟩,
  ⟨"PartialPosition_piece_kind_bitboard", [("self", .ref false (.path "PartialPosition")),
    ("piece_kind", .path "PieceKind")], .path "Bitboard", false⟩,
  ⟨"PartialPosition_player_bitboard", [("self", .ref false (.path "PartialPosition")), ("color",
    .path "Color")], .path "Bitboard", false⟩,
  ⟨"PartialPosition_ply", [("self", .ref false (.path "PartialPosition"))], .u16, false⟩,
  ⟨"PartialPosition_side_to_move", [("self", .ref false (.path "PartialPosition"))],
    .path "Color", false⟩,
  ⟨"PartialPosition_startpos", [("buf", .ref true (.uninit (.path "PartialPosition")))], .unit,
    false⟩,
  ⟨"PartialPosition_to_sfen_c", [("self", .ref false (.path "PartialPosition")), ("ptr",
    .raw .u8)], .unit, false⟩,
  ⟨"PartialPosition_vacant_bitboard", [("self", .ref false (.path "PartialPosition"))],
    .path "Bitboard", false⟩,
  ⟨"PieceKind_from_u8", [("repr", .u8)], .path "OptionPieceKind", false⟩,
  ⟨"PieceKind_from_u8_unchecked", [("repr", .u8)], .path "PieceKind", false⟩,
  ⟨"PieceKind_promote", [("self", .path "PieceKind")], .path "OptionPieceKind", false⟩,
  ⟨"PieceKind_unpromote", [("self", .path "PieceKind")], .path "OptionPieceKind", false⟩,
  ⟨"Piece_color", [("self", .path "Piece")], .path "Color", false⟩,
  ⟨"Piece_new", [("piece_kind", .path "PieceKind"), ("color", .path "Color")], .path "Piece",
    false⟩,
  ⟨"Piece_piece_kind", [("self", .path "Piece")], .path "PieceKind", false⟩,
  ⟨"Piece_promote", [("self", .path "Piece")], .path "OptionPiece", false⟩,
  ⟨"Piece_unpromote", [("self", .path "Piece")], .path "OptionPiece", false⟩,
  ⟨"Position_destruct", [("ptr", .raw (.path "Position"))], .unit, true⟩,
  ⟨"Position_hand_of_a_player", [("self", .ref false (.path "Position")), ("color",
    .path "Color")], .path "Hand", true⟩,
  ⟨"Position_initial_position", [("self", .ref false (.path "Position"))],
    .ref false (.path "PartialPosition"), true⟩,
  ⟨"Position_inner", [("self", .ref false (.path "Position"))],
    .ref false (.path "PartialPosition"), true⟩,
  ⟨"Position_last_compact_move", [("self", .ref false (.path "Position"))],
    .path "OptionCompactMove", true⟩,
  ⟨"Position_make_compact_move", [("self", .ref true (.path "Position")), ("mv",
    .path "CompactMove")], .bool, true⟩,
  ⟨"Position_occupied_bitboard", [("self", .ref false (.path "Position"))], .path "Bitboard", true⟩,
  ⟨"Position_piece_at", [("self", .ref false (.path "Position")), ("square", .path "Square")],
    .path "OptionPiece", true⟩,
  ⟨"Position_piece_bitboard", [("self", .ref false (.path "Position")), ("piece", .path "Piece")],
    .path "Bitboard", true⟩,
  ⟨"Position_player_bitboard", [("self", .ref false (.path "Position")), ("color",
    .path "Color")], .path "Bitboard", true⟩,
  ⟨"Position_ply", [("self", .ref false (.path "Position"))], .u16, true⟩,
  ⟨"Position_side_to_move", [("self", .ref false (.path "Position"))], .path "Color", true⟩,
  ⟨"Position_startpos", [], .raw (.path "Position"), true⟩,
  ⟨"Position_to_sfen_c", [("self", .ref false (.path "Position")), ("ptr", .raw .u8)], .unit, true⟩,
  ⟨"Position_vacant_bitboard", [("self", .ref false (.path "Position"))], .path "Bitboard", true⟩,
  ⟨"Square_file", [("self", .path "Square")], .u8, false⟩,
  ⟨"Square_flip", [("self", .path "Square")], .path "Square", false⟩,
  ⟨"Square_from_u8", [("value", .u8)], .option (.path "Square"), false⟩,
  ⟨"Square_from_u8_unchecked", [("value", .u8)], .path "Square", false⟩,
  ⟨"Square_index", [("self", .path "Square")], .u8, false⟩,
  ⟨"Square_new", [("file", .u8), ("rank", .u8)], .path "OptionSquare", false⟩,
  ⟨"Square_new_relative", [("file", .u8), ("rank", .u8), ("color", .path "Color")],
    .path "OptionSquare", false⟩,
  ⟨"Square_rank", [("self", .path "Square")], .u8, false⟩,
  ⟨"Square_relative_file", [("self", .path "Square"), ("color", .path "Color")], .u8, false⟩,
  ⟨"Square_relative_rank", [("self", .path "Square"), ("color", .path "Color")], .u8, false⟩,
  ⟨"Square_shift", [("self", .path "Square"), ("file_delta", .i8), ("rank_delta", .i8)],
    .option (.path "Square"), false⟩]

end ShogiCore
