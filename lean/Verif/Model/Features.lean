import Verif.Model.Header

/- Models the features of shogi_core/Cargo.toml and shogi_core_c/Cargo.toml and every `#[cfg(…)]`
of the two crates: which items a build contains.  The attributes `cfg_attr(docsrs, …)`, `cfg(bench)`
and `cfg(test)` select nothing in an ordinary build and are left out. -/

namespace ShogiCore

/-! ### Features -/

/-- shogi_core/Cargo.toml:19-25 `[features]`; `default` is `defaultFeatures` below. -/
inductive Feature where
  | alloc | experimental | hash | ord | std
  deriving DecidableEq, Repr

/-- shogi_core_c/Cargo.toml:14-18 `[features]`. -/
inductive CFeature where
  | alloc | experimental | std
  deriving DecidableEq, Repr

/-- shogi_core/Cargo.toml:21-25: what a feature turns on. -/
def Feature.implies : Feature → List Feature
  | .std => [.alloc]
  | _ => []

/-- shogi_core/Cargo.toml:20 `default`. -/
def defaultFeatures : List Feature := [.std]

/-- shogi_core_c/Cargo.toml:16-18: what a feature of the C library asks of shogi_core; none turns on
another feature of the C library. -/
def CFeature.asks : CFeature → List Feature
  | .alloc => [.alloc]
  | .experimental => [.experimental]
  | .std => [.std]

/-- shogi_core_c/Cargo.toml:15 `default`. -/
def defaultCFeatures : List CFeature := [.std]

/-- What cargo turns on in shogi_core when these are asked for (shogi_core/Cargo.toml:19-25): each
of them and what it implies. -/
def cargo (asked : List Feature) : List Feature :=
  asked ++ asked.flatMap Feature.implies

/-- What cargo turns on in shogi_core for a build of the C library with the features `c` in which
the other packages ask for `others` (shogi_core_c/Cargo.toml:16-18, 26: without the default
features of shogi_core; features asked for by several packages are united). -/
def cargoC (c : List CFeature) (others : List Feature) : List Feature :=
  cargo (c.flatMap CFeature.asks ++ others)

/-! ### Items -/

/-- The predicates of `#[cfg(…)]` (position.rs:11, shogi_core_c/src/lib.rs:2, 5), and whether they
hold of features. -/
inductive Cfg (φ : Type) where
  | always
  | feature (f : φ)
  | and (a b : Cfg φ)
  | not (a : Cfg φ)
  deriving DecidableEq, Repr

/-- The predicate holds when these features are on (shogi_core_c/src/lib.rs:2). -/
def Cfg.holds {φ : Type} [DecidableEq φ] (on : List φ) : Cfg φ → Bool
  | .always => true
  | .feature f => on.contains f
  | .and a b => a.holds on && b.holds on
  | .not a => !a.holds on

/-- A method of a trait that implementations must define (legality.rs:42), one that they may define
(legality.rs:52), or anything else. -/
inductive ItemKind where
  | plain | required | provided
  deriving DecidableEq, Repr

/-- An item: its name, what it is, when it is there, the items its definition mentions, and the
symbol it is exported under (position.rs:19-24).  Of the items of the crate, the types, the `impl`s,
the functions named by a path and the methods called on `self` or `self.inner` count as mentioned. -/
structure Item where
  name : String
  kind : ItemKind
  cfg : Cfg Feature
  uses : List String
  symbol : Option String
  deriving DecidableEq, Repr

/-- lib.rs:9-10, 30, 33, 36, 39, 42, 45, 48, 51, 54, 57, 60, 64, 67, 70, 75, 78, 81, 84, 87, 90: the crate `alloc` and what the root re-exports. -/
def libItems : List Item := [
  ⟨"alloc", .plain, (.feature .alloc), [], none⟩,
  ⟨"pub use ToUsi", .plain, .always, ["ToUsi"], none⟩,
  ⟨"pub use Color", .plain, .always, ["Color"], none⟩,
  ⟨"pub use Square", .plain, .always, ["Square"], none⟩,
  ⟨"pub use PieceKind", .plain, .always, ["PieceKind"], none⟩,
  ⟨"pub use Piece", .plain, .always, ["Piece"], none⟩,
  ⟨"pub use Move", .plain, .always, ["Move"], none⟩,
  ⟨"pub use CompactMove", .plain, .always, ["CompactMove"], none⟩,
  ⟨"pub use Hand", .plain, .always, ["Hand"], none⟩,
  ⟨"pub use Bitboard", .plain, .always, ["Bitboard"], none⟩,
  ⟨"pub use ByteSwappedBitboard", .plain, .always, ["ByteSwappedBitboard"], none⟩,
  ⟨"pub use GameResolution", .plain, .always, ["GameResolution"], none⟩,
  ⟨"pub use PartialGame", .plain, .always, ["PartialGame"], none⟩,
  ⟨"pub use PartialPosition", .plain, .always, ["PartialPosition"], none⟩,
  ⟨"pub use Game", .plain, (.feature .alloc), ["Game"], none⟩,
  ⟨"pub use Position", .plain, (.feature .alloc), ["Position"], none⟩,
  ⟨"pub use IllegalMoveKind", .plain, .always, ["IllegalMoveKind"], none⟩,
  ⟨"pub use LegalityChecker", .plain, .always, ["LegalityChecker"], none⟩,
  ⟨"pub use PositionStatus", .plain, .always, ["PositionStatus"], none⟩,
  ⟨"pub use OptionPieceKind", .plain, .always, ["OptionPieceKind"], none⟩,
  ⟨"pub use OptionPiece", .plain, .always, ["OptionPiece"], none⟩,
  ⟨"pub use OptionSquare", .plain, .always, ["OptionSquare"], none⟩,
  ⟨"pub use OptionCompactMove", .plain, .always, ["OptionCompactMove"], none⟩,
  ⟨"pub use OptionGameResolution", .plain, .always, ["OptionGameResolution"], none⟩,
  ⟨"pub use ResultUnitIllegalMoveKind", .plain, .always, ["ResultUnitIllegalMoveKind"], none⟩]

/-- bitboard.rs:12, 28-30, 34-36, 48-50, 65-67, 80-82, 98-100, 112-120, 132-137, 154-171, 175-177,
186-189, 200-204, 212-220, 236-243, 248-250, 255-257, 262-264, 269-271, 276-278, 286-294, 302-310,
318-334, 342-355, 358-368, 432-436, 437-441, 442-446, 453-455, 457-459, 462-464, 466-468, 471-473,
475-477, 480-496, 498-514, 518-520, 522, 523, 530, 538-541, 553-557, 563-565, 571-573, 579-581,
587-589, 595-597, 600, 601: the items, in order. -/
def bitboardItems : List Item := [
  ⟨"Bitboard", .plain, .always, [], none⟩,
  ⟨"Bitboard::empty", .plain, .always, ["Bitboard"], none⟩,
  ⟨"Bitboard::Bitboard_empty", .plain, .always, ["Bitboard", "Bitboard::empty"],
    (some "Bitboard_empty")⟩,
  ⟨"Bitboard::single", .plain, .always, ["Square", "Bitboard"], none⟩,
  ⟨"Bitboard::Bitboard_single", .plain, .always, ["Square", "Bitboard", "Bitboard::single"],
    (some "Bitboard_single")⟩,
  ⟨"Bitboard::count", .plain, .always, ["Bitboard"], (some "Bitboard_count")⟩,
  ⟨"Bitboard::is_empty", .plain, .always, ["Bitboard"], (some "Bitboard_is_empty")⟩,
  ⟨"Bitboard::contains", .plain, .always, ["Bitboard", "Square"], (some "Bitboard_contains")⟩,
  ⟨"Bitboard::flip", .plain, .always, ["Bitboard"], (some "Bitboard_flip")⟩,
  ⟨"Bitboard::pop", .plain, .always, ["Square", "Bitboard", "Square::from_u8_unchecked",
    "Bitboard::from_u128_unchecked"], none⟩,
  ⟨"Bitboard::Bitboard_pop", .plain, .always, ["Bitboard", "OptionSquare"], (some "Bitboard_pop")⟩,
  ⟨"Bitboard::to_u128", .plain, .always, ["Bitboard"], none⟩,
  ⟨"Bitboard::from_u128_unchecked", .plain, .always, ["Bitboard"], none⟩,
  ⟨"Bitboard::from_file_unchecked", .plain, .always, ["Bitboard"], none⟩,
  ⟨"Bitboard::get_file_unchecked", .plain, .always, ["Bitboard"], none⟩,
  ⟨"Bitboard::or", .plain, .always, ["Bitboard"], none⟩,
  ⟨"Bitboard::and", .plain, .always, ["Bitboard"], none⟩,
  ⟨"Bitboard::xor", .plain, .always, ["Bitboard"], none⟩,
  ⟨"Bitboard::andnot", .plain, .always, ["Bitboard"], none⟩,
  ⟨"Bitboard::swap_bytes", .plain, .always, ["Bitboard", "ByteSwappedBitboard"], none⟩,
  ⟨"Bitboard::shift_down", .plain, .always, ["Bitboard"], none⟩,
  ⟨"Bitboard::shift_up", .plain, .always, ["Bitboard"], none⟩,
  ⟨"Bitboard::shift_left", .plain, .always, ["Bitboard"], none⟩,
  ⟨"Bitboard::shift_right", .plain, .always, ["Bitboard"], none⟩,
  ⟨"Iterator for Bitboard", .plain, .always, ["Bitboard", "Square"], none⟩,
  ⟨"BitAnd for Bitboard", .plain, .always, ["Bitboard", "Square"], none⟩,
  ⟨"BitOr for Bitboard", .plain, .always, ["Bitboard", "Square"], none⟩,
  ⟨"BitXor for Bitboard", .plain, .always, ["Bitboard", "Square"], none⟩,
  ⟨"Bitboard::Bitboard_bitand", .plain, .always, ["Bitboard"], (some "Bitboard_bitand")⟩,
  ⟨"Bitboard::Bitboard_bitand_assign", .plain, .always, ["Bitboard"],
    (some "Bitboard_bitand_assign")⟩,
  ⟨"Bitboard::Bitboard_bitor", .plain, .always, ["Bitboard"], (some "Bitboard_bitor")⟩,
  ⟨"Bitboard::Bitboard_bitor_assign", .plain, .always, ["Bitboard"],
    (some "Bitboard_bitor_assign")⟩,
  ⟨"Bitboard::Bitboard_bitxor", .plain, .always, ["Bitboard"], (some "Bitboard_bitxor")⟩,
  ⟨"Bitboard::Bitboard_bitxor_assign", .plain, .always, ["Bitboard"],
    (some "Bitboard_bitxor_assign")⟩,
  ⟨"Not for Bitboard", .plain, .always, ["Bitboard"], none⟩,
  ⟨"Not for &'_ Bitboard", .plain, .always, ["Bitboard"], none⟩,
  ⟨"Bitboard_not", .plain, .always, ["Bitboard"], (some "Bitboard_not")⟩,
  ⟨"Ord for Bitboard", .plain, (.feature .ord), ["Bitboard"], none⟩,
  ⟨"Hash for Bitboard", .plain, (.feature .hash), ["Bitboard"], none⟩,
  ⟨"ByteSwappedBitboard", .plain, .always, [], none⟩,
  ⟨"ByteSwappedBitboard::to_u128", .plain, .always, ["ByteSwappedBitboard"], none⟩,
  ⟨"ByteSwappedBitboard::from_u128_unchecked", .plain, .always, ["ByteSwappedBitboard"], none⟩,
  ⟨"ByteSwappedBitboard::or", .plain, .always, ["ByteSwappedBitboard"], none⟩,
  ⟨"ByteSwappedBitboard::and", .plain, .always, ["ByteSwappedBitboard"], none⟩,
  ⟨"ByteSwappedBitboard::xor", .plain, .always, ["ByteSwappedBitboard"], none⟩,
  ⟨"ByteSwappedBitboard::andnot", .plain, .always, ["ByteSwappedBitboard"], none⟩,
  ⟨"ByteSwappedBitboard::swap_bytes", .plain, .always, ["ByteSwappedBitboard", "Bitboard"], none⟩,
  ⟨"Ord for ByteSwappedBitboard", .plain, (.feature .ord), ["ByteSwappedBitboard"], none⟩,
  ⟨"Hash for ByteSwappedBitboard", .plain, (.feature .hash), ["ByteSwappedBitboard"], none⟩]

/-- color.rs:9-18, 30-35, 41-48, 61, 64-66, 69, 70, 72-79: the items, in order. -/
def colorItems : List Item := [
  ⟨"Color", .plain, .always, [], none⟩,
  ⟨"Color::flip", .plain, .always, ["Color"], (some "Color_flip")⟩,
  ⟨"Color::array_index", .plain, .always, ["Color"], none⟩,
  ⟨"Color::NUM", .plain, .always, ["Color"], none⟩,
  ⟨"Color::all", .plain, .always, ["Color"], none⟩,
  ⟨"Ord for Color", .plain, (.feature .ord), ["Color"], none⟩,
  ⟨"Hash for Color", .plain, (.feature .hash), ["Color"], none⟩,
  ⟨"ToUsi for Color", .plain, .always, ["ToUsi", "Color"], none⟩]

/-- game_resolution.rs:7-28, 37-39, 42, 43, 58, 60-68, 70-81, 83, 84: the items, in order. -/
def gameResolutionItems : List Item := [
  ⟨"GameResolution", .plain, .always, [], none⟩,
  ⟨"GameResolution::from_u8_unchecked", .plain, .always, ["GameResolution"],
    (some "GameResolution_from_u8_unchecked")⟩,
  ⟨"Ord for GameResolution", .plain, (.feature .ord), ["GameResolution"], none⟩,
  ⟨"Hash for GameResolution", .plain, (.feature .hash), ["GameResolution"], none⟩,
  ⟨"OptionGameResolution", .plain, .always, [], none⟩,
  ⟨"From<Option<GameResolution>> for OptionGameResolution", .plain, .always, ["GameResolution",
    "OptionGameResolution"], none⟩,
  ⟨"From<OptionGameResolution> for Option<GameResolution>", .plain, .always,
    ["OptionGameResolution", "GameResolution"], none⟩,
  ⟨"Ord for OptionGameResolution", .plain, (.feature .ord), ["OptionGameResolution"], none⟩,
  ⟨"Hash for OptionGameResolution", .plain, (.feature .hash), ["OptionGameResolution"], none⟩]

/-- hand.rs:12, 24-26, 55-62, 85-92, 95-101, 107-114, 120-127, 133-135, 153-158, 161-163, 175-178,
188, 191-196, 198, 199, 218-240: the items, in order. -/
def handItems : List Item := [
  ⟨"Hand", .plain, .always, [], none⟩,
  ⟨"Hand::new", .plain, .always, ["Hand"], (some "Hand_new")⟩,
  ⟨"Hand::added", .plain, .always, ["PieceKind", "Hand"], none⟩,
  ⟨"Hand::removed", .plain, .always, ["PieceKind", "Hand"], none⟩,
  ⟨"Hand::count", .plain, .always, ["Hand", "PieceKind"], none⟩,
  ⟨"Hand::Hand_add", .plain, .always, ["Hand", "PieceKind"], (some "Hand_add")⟩,
  ⟨"Hand::Hand_remove", .plain, .always, ["Hand", "PieceKind"], (some "Hand_remove")⟩,
  ⟨"Hand::Hand_count", .plain, .always, ["Hand", "PieceKind"], (some "Hand_count")⟩,
  ⟨"Hand::is_hand_piece", .plain, .always, ["Hand", "PieceKind"], none⟩,
  ⟨"Hand::Hand_is_hand_piece", .plain, .always, ["PieceKind", "Hand", "Hand::is_hand_piece"],
    (some "Hand_is_hand_piece")⟩,
  ⟨"Hand::all_hand_pieces", .plain, .always, ["Hand", "PieceKind",
    "PieceKind::from_u8_unchecked"], none⟩,
  ⟨"Hand::NUM_HAND_PIECES", .plain, .always, ["Hand"], none⟩,
  ⟨"PartialEq for Hand", .plain, .always, ["Hand"], none⟩,
  ⟨"Ord for Hand", .plain, (.feature .ord), ["Hand"], none⟩,
  ⟨"Hash for Hand", .plain, (.feature .hash), ["Hand"], none⟩,
  ⟨"ToUsi for [Hand; 2]", .plain, .always, ["ToUsi", "Hand"], none⟩]

/-- illegal_move_kind.rs:9-38, 45-52, 60-62, 65, 66, 81, 83-91, 93-104, 106-114, 116-127, 129,
130: the items, in order. -/
def illegalMoveKindItems : List Item := [
  ⟨"IllegalMoveKind", .plain, .always, [], none⟩,
  ⟨"IllegalMoveKind::from_u8", .plain, .always, ["IllegalMoveKind",
    "IllegalMoveKind::from_u8_unchecked"], none⟩,
  ⟨"IllegalMoveKind::from_u8_unchecked", .plain, .always, ["IllegalMoveKind"],
    (some "IllegalMoveKind_from_u8_unchecked")⟩,
  ⟨"Ord for IllegalMoveKind", .plain, (.feature .ord), ["IllegalMoveKind"], none⟩,
  ⟨"Hash for IllegalMoveKind", .plain, (.feature .hash), ["IllegalMoveKind"], none⟩,
  ⟨"ResultUnitIllegalMoveKind", .plain, .always, [], none⟩,
  ⟨"From<Option<IllegalMoveKind>> for ResultUnitIllegalMoveKind", .plain, .always,
    ["IllegalMoveKind", "ResultUnitIllegalMoveKind"], none⟩,
  ⟨"From<ResultUnitIllegalMoveKind> for Option<IllegalMoveKind>", .plain, .always,
    ["ResultUnitIllegalMoveKind", "IllegalMoveKind"], none⟩,
  ⟨"From<Result<(), IllegalMoveKind>> for ResultUnitIllegalMoveKind", .plain, .always,
    ["IllegalMoveKind", "ResultUnitIllegalMoveKind"], none⟩,
  ⟨"From<ResultUnitIllegalMoveKind> for Result<(), IllegalMoveKind>", .plain, .always,
    ["ResultUnitIllegalMoveKind", "IllegalMoveKind"], none⟩,
  ⟨"Ord for ResultUnitIllegalMoveKind", .plain, (.feature .ord), ["ResultUnitIllegalMoveKind"],
    none⟩,
  ⟨"Hash for ResultUnitIllegalMoveKind", .plain, (.feature .hash), ["ResultUnitIllegalMoveKind"],
    none⟩]

/-- legality.rs:11-22, 24, 25, 31-131, 37, 42, 52-57, 64-69, 74-75, 80, 89-94, 100, 105, 110-115,
120, 124-130: the items, in order. -/
def legalityItems : List Item := [
  ⟨"PositionStatus", .plain, .always, [], none⟩,
  ⟨"Ord for PositionStatus", .plain, (.feature .ord), ["PositionStatus"], none⟩,
  ⟨"Hash for PositionStatus", .plain, (.feature .hash), ["PositionStatus"], none⟩,
  ⟨"LegalityChecker", .plain, .always, [], none⟩,
  ⟨"LegalityChecker::status", .required, (.feature .alloc), ["LegalityChecker", "Position",
    "PositionStatus"], none⟩,
  ⟨"LegalityChecker::status_partial", .required, .always, ["LegalityChecker", "PartialPosition",
    "PositionStatus"], none⟩,
  ⟨"LegalityChecker::is_legal", .provided, (.feature .alloc), ["LegalityChecker", "Position",
    "Move", "IllegalMoveKind", "PositionStatus", "LegalityChecker::status",
    "LegalityChecker::is_legal_partial"], none⟩,
  ⟨"LegalityChecker::is_legal_lite", .provided, (.feature .alloc), ["LegalityChecker", "Position",
    "Move", "PositionStatus", "LegalityChecker::status",
    "LegalityChecker::is_legal_partial_lite"], none⟩,
  ⟨"LegalityChecker::is_legal_partial", .required, .always, ["LegalityChecker", "PartialPosition",
    "Move", "IllegalMoveKind"], none⟩,
  ⟨"LegalityChecker::is_legal_partial_lite", .required, .always, ["LegalityChecker",
    "PartialPosition", "Move"], none⟩,
  ⟨"LegalityChecker::all_legal_moves", .provided, (.feature .alloc), ["LegalityChecker",
    "Position", "Move", "PositionStatus", "alloc", "LegalityChecker::status",
    "LegalityChecker::all_legal_moves_partial"], none⟩,
  ⟨"LegalityChecker::all_legal_moves_partial", .required, (.feature .alloc), ["LegalityChecker",
    "PartialPosition", "Move", "alloc"], none⟩,
  ⟨"LegalityChecker::normal_from_candidates", .required, .always, ["LegalityChecker",
    "PartialPosition", "Square", "Bitboard"], none⟩,
  ⟨"LegalityChecker::normal_to_candidates", .required, .always, ["LegalityChecker",
    "PartialPosition", "Square", "Piece", "Bitboard"], none⟩,
  ⟨"LegalityChecker::drop_candidates", .required, .always, ["LegalityChecker", "PartialPosition",
    "Piece", "Bitboard"], none⟩,
  ⟨"LegalityChecker::make_move", .provided, (.feature .alloc), ["LegalityChecker", "Position",
    "Move", "IllegalMoveKind", "LegalityChecker::is_legal", "Position::make_move"], none⟩]

/-- mv.rs:9-28, 39-44, 54-59, 62-64, 68-70, 83-112, 116-131, 146-167, 178, 180-191, 193-210,
224-228, 240-244, 247-257, 261-263, 267-271, 275-277, 282-284, 287, 288, 293-297, 305, 307-315,
317-322, 324, 325: the items, in order. -/
def mvItems : List Item := [
  ⟨"Move", .plain, .always, ["Square", "Piece"], none⟩,
  ⟨"Move::from", .plain, .always, ["Square", "Move"], none⟩,
  ⟨"Move::to", .plain, .always, ["Square", "Move"], none⟩,
  ⟨"Move::is_promoting", .plain, .always, ["Move"], none⟩,
  ⟨"Move::is_drop", .plain, .always, ["Move"], none⟩,
  ⟨"Ord for Move", .plain, (.feature .ord), ["Move", "Ord for Square", "Ord for Piece"], none⟩,
  ⟨"Hash for Move", .plain, (.feature .hash), ["Move", "Hash for Square", "Hash for Piece"], none⟩,
  ⟨"ToUsi for Move", .plain, .always, ["ToUsi", "Move"], none⟩,
  ⟨"CompactMove", .plain, .always, [], none⟩,
  ⟨"From<Move> for CompactMove", .plain, .always, ["Move", "CompactMove"], none⟩,
  ⟨"From<CompactMove> for Move", .plain, .always, ["CompactMove", "Move", "Piece", "Square"], none⟩,
  ⟨"CompactMove::normal", .plain, .always, ["Square", "CompactMove"], (some "CompactMove_normal")⟩,
  ⟨"CompactMove::drop", .plain, .always, ["Piece", "Square", "CompactMove"],
    (some "CompactMove_drop")⟩,
  ⟨"CompactMove::from", .plain, .always, ["CompactMove", "Square", "Square::from_u8_unchecked"],
    none⟩,
  ⟨"CompactMove::CompactMove_from", .plain, .always, ["CompactMove", "OptionSquare"],
    (some "CompactMove_from")⟩,
  ⟨"CompactMove::to", .plain, .always, ["CompactMove", "Square", "Square::from_u8_unchecked"],
    (some "CompactMove_to")⟩,
  ⟨"CompactMove::is_promoting", .plain, .always, ["CompactMove"],
    (some "CompactMove_is_promoting")⟩,
  ⟨"CompactMove::is_drop", .plain, .always, ["CompactMove"], (some "CompactMove_is_drop")⟩,
  ⟨"Ord for CompactMove", .plain, (.feature .ord), ["CompactMove"], none⟩,
  ⟨"Hash for CompactMove", .plain, (.feature .hash), ["CompactMove"], none⟩,
  ⟨"ToUsi for CompactMove", .plain, .always, ["ToUsi", "CompactMove", "Move"], none⟩,
  ⟨"OptionCompactMove", .plain, .always, [], none⟩,
  ⟨"From<Option<CompactMove>> for OptionCompactMove", .plain, .always, ["CompactMove",
    "OptionCompactMove"], none⟩,
  ⟨"From<OptionCompactMove> for Option<CompactMove>", .plain, .always, ["OptionCompactMove",
    "CompactMove"], none⟩,
  ⟨"Ord for OptionCompactMove", .plain, (.feature .ord), ["OptionCompactMove"], none⟩,
  ⟨"Hash for OptionCompactMove", .plain, (.feature .hash), ["OptionCompactMove"], none⟩]

/-- piece.rs:21, 31, 36-45, 48-50, 54-66, 71-73, 78-80, 85-87, 91-94, 99-101, 105-108, 113-115,
129-135, 153, 156-169, 172, 173, 175-183, 185-190, 192, 193, 195-227: the items, in order. -/
def pieceItems : List Item := [
  ⟨"Piece", .plain, .always, [], none⟩,
  ⟨"OptionPiece", .plain, .always, [], none⟩,
  ⟨"Piece::new", .plain, .always, ["PieceKind", "Color", "Piece"], none⟩,
  ⟨"Piece::Piece_new", .plain, .always, ["PieceKind", "Color", "Piece", "Piece::new"],
    (some "Piece_new")⟩,
  ⟨"Piece::to_parts", .plain, .always, ["Piece", "PieceKind", "Color",
    "PieceKind::from_u8_unchecked"], none⟩,
  ⟨"Piece::piece_kind", .plain, .always, ["Piece", "PieceKind"], (some "Piece_piece_kind")⟩,
  ⟨"Piece::color", .plain, .always, ["Piece", "Color"], (some "Piece_color")⟩,
  ⟨"Piece::as_u8", .plain, .always, ["Piece"], none⟩,
  ⟨"Piece::promote", .plain, .always, ["Piece", "Piece::new"], none⟩,
  ⟨"Piece::Piece_promote", .plain, .always, ["Piece", "OptionPiece"], (some "Piece_promote")⟩,
  ⟨"Piece::unpromote", .plain, .always, ["Piece", "Piece::new"], none⟩,
  ⟨"Piece::Piece_unpromote", .plain, .always, ["Piece", "OptionPiece"], (some "Piece_unpromote")⟩,
  ⟨"Piece::array_index", .plain, (.feature .experimental), ["Piece", "Piece::NUM"], none⟩,
  ⟨"Piece::NUM", .plain, (.feature .experimental), ["Piece"], none⟩,
  ⟨"Piece::all", .plain, .always, ["Piece", "PieceKind", "Color", "Piece::new", "PieceKind::all",
    "Color::all"], none⟩,
  ⟨"Ord for Piece", .plain, (.feature .ord), ["Piece"], none⟩,
  ⟨"Hash for Piece", .plain, (.feature .hash), ["Piece"], none⟩,
  ⟨"From<Option<Piece>> for OptionPiece", .plain, .always, ["Piece", "OptionPiece"], none⟩,
  ⟨"From<OptionPiece> for Option<Piece>", .plain, .always, ["OptionPiece", "Piece"], none⟩,
  ⟨"Ord for OptionPiece", .plain, (.feature .ord), ["OptionPiece"], none⟩,
  ⟨"Hash for OptionPiece", .plain, (.feature .hash), ["OptionPiece"], none⟩,
  ⟨"ToUsi for Piece", .plain, .always, ["ToUsi", "Piece", "PieceKind", "Color"], none⟩]

/-- piece_kind.rs:9-108, 116-133, 139-156, 164-171, 175-177, 187-189, 198-200, 205-207, 212-214,
220-227, 242, 247-252, 256, 259-276, 279, 280, 285-305, 319, 321-329, 331-342: the items, in
order. -/
def pieceKindItems : List Item := [
  ⟨"PieceKind", .plain, .always, [], none⟩,
  ⟨"PieceKind::promote", .plain, .always, ["PieceKind"], none⟩,
  ⟨"PieceKind::unpromote", .plain, .always, ["PieceKind"], none⟩,
  ⟨"PieceKind::from_u8", .plain, .always, ["PieceKind", "PieceKind::from_u8_unchecked"], none⟩,
  ⟨"PieceKind::PieceKind_from_u8", .plain, .always, ["OptionPieceKind", "PieceKind",
    "PieceKind::from_u8"], (some "PieceKind_from_u8")⟩,
  ⟨"PieceKind::from_u8_unchecked", .plain, .always, ["PieceKind"], none⟩,
  ⟨"PieceKind::PieceKind_from_u8_unchecked", .plain, .always, ["PieceKind"],
    (some "PieceKind_from_u8_unchecked")⟩,
  ⟨"PieceKind::PieceKind_promote", .plain, .always, ["PieceKind", "OptionPieceKind"],
    (some "PieceKind_promote")⟩,
  ⟨"PieceKind::PieceKind_unpromote", .plain, .always, ["PieceKind", "OptionPieceKind"],
    (some "PieceKind_unpromote")⟩,
  ⟨"PieceKind::array_index", .plain, .always, ["PieceKind"], none⟩,
  ⟨"PieceKind::NUM", .plain, .always, ["PieceKind"], none⟩,
  ⟨"PieceKind::option_array_index", .plain, (.feature .experimental), ["PieceKind"], none⟩,
  ⟨"PieceKind::OPTION_NUM", .plain, (.feature .experimental), ["PieceKind"], none⟩,
  ⟨"PieceKind::all", .plain, .always, ["PieceKind", "PieceKind::NUM"], none⟩,
  ⟨"Ord for PieceKind", .plain, (.feature .ord), ["PieceKind"], none⟩,
  ⟨"Hash for PieceKind", .plain, (.feature .hash), ["PieceKind"], none⟩,
  ⟨"ToUsi for PieceKind", .plain, .always, ["ToUsi", "PieceKind"], none⟩,
  ⟨"OptionPieceKind", .plain, .always, [], none⟩,
  ⟨"From<Option<PieceKind>> for OptionPieceKind", .plain, .always, ["PieceKind",
    "OptionPieceKind"], none⟩,
  ⟨"From<OptionPieceKind> for Option<PieceKind>", .plain, .always, ["OptionPieceKind",
    "PieceKind"], none⟩]

/-- position.rs:14-17, 24-26, 30-32, 36-38, 41-43, 46-48, 52, 54, 58-61, 67-69, 73-75, 79-81,
84-86, 89-91, 94, 95, 101-105, 112-114, 119-121, 124-126, 130-132, 139-141, 144-150, 163-165,
169-171, 181-183, 188-190, 194-196, 209-211, 215-217, 227-229, 236-238, 242-244, 248-250, 264-266,
275-277, 286-288, 298-300, 304-306, 315-319, 329-332, 348-350, 358-360, 364, 366, 376-385,
389-400, 431-479, 483-485, 499-501, 505-507, 512-515, 522-525, 530-533, 538-540, 545-551, 565-567,
572-576, 582-611, 618-620, 625-627, 632-634, 649-652, 665-667, 676-678, 687-689, 693-695, 698-700,
708-752, 762-765, 768-803, 819-823, 831-853, 856, 857, 859-863: the items, in order. -/
def positionItems : List Item := [
  ⟨"Game", .plain, (.feature .alloc), ["Position", "OptionGameResolution"], none⟩,
  ⟨"Game::position", .plain, (.feature .alloc), ["Game", "Position"], (some "Game_position")⟩,
  ⟨"Game::resolve", .plain, (.feature .alloc), ["Game", "GameResolution"], (some "Game_resolve")⟩,
  ⟨"Game::unresolve", .plain, (.feature .alloc), ["Game"], (some "Game_unresolve")⟩,
  ⟨"Game::resolution", .plain, (.feature .alloc), ["Game", "GameResolution"], none⟩,
  ⟨"Game::Game_resolution", .plain, (.feature .alloc), ["Game", "OptionGameResolution"],
    (some "Game_resolution")⟩,
  ⟨"Ord for Game", .plain, (.and (.feature .alloc) (.feature .ord)), ["Game", "Ord for Position",
    "Ord for OptionGameResolution"], none⟩,
  ⟨"Hash for Game", .plain, (.and (.feature .alloc) (.feature .hash)), ["Game",
    "Hash for Position", "Hash for OptionGameResolution"], none⟩,
  ⟨"PartialGame", .plain, .always, ["PartialPosition", "OptionGameResolution"], none⟩,
  ⟨"PartialGame::position", .plain, .always, ["PartialGame", "PartialPosition"],
    (some "PartialGame_position")⟩,
  ⟨"PartialGame::resolve", .plain, .always, ["PartialGame", "GameResolution"],
    (some "PartialGame_resolve")⟩,
  ⟨"PartialGame::unresolve", .plain, .always, ["PartialGame"], (some "PartialGame_unresolve")⟩,
  ⟨"PartialGame::resolution", .plain, .always, ["PartialGame", "GameResolution"], none⟩,
  ⟨"PartialGame::PartialGame_resolution", .plain, .always, ["PartialGame",
    "OptionGameResolution"], (some "PartialGame_resolution")⟩,
  ⟨"Ord for PartialGame", .plain, (.feature .ord), ["PartialGame", "Ord for PartialPosition",
    "Ord for OptionGameResolution"], none⟩,
  ⟨"Hash for PartialGame", .plain, (.feature .hash), ["PartialGame", "Hash for PartialPosition",
    "Hash for OptionGameResolution"], none⟩,
  ⟨"Position", .plain, (.feature .alloc), ["PartialPosition", "Move", "alloc"], none⟩,
  ⟨"Position::inner", .plain, (.feature .alloc), ["Position", "PartialPosition"],
    (some "Position_inner")⟩,
  ⟨"Position::initial_position", .plain, (.feature .alloc), ["Position", "PartialPosition"],
    (some "Position_initial_position")⟩,
  ⟨"Position::startpos", .plain, (.feature .alloc), ["Position", "PartialPosition",
    "Position::arbitrary_position", "PartialPosition::startpos"], none⟩,
  ⟨"Position::Position_startpos", .plain, (.feature .alloc), ["Position", "alloc",
    "Position::startpos"], (some "Position_startpos")⟩,
  ⟨"Position::Position_destruct", .plain, (.feature .alloc), ["Position", "alloc"],
    (some "Position_destruct")⟩,
  ⟨"Position::arbitrary_position", .plain, (.feature .alloc), ["PartialPosition", "Position",
    "alloc"], none⟩,
  ⟨"Position::side_to_move", .plain, (.feature .alloc), ["Position", "Color",
    "PartialPosition::side_to_move"], (some "Position_side_to_move")⟩,
  ⟨"Position::hand_of_a_player", .plain, (.feature .alloc), ["Position", "Color", "Hand",
    "PartialPosition::hand_of_a_player"], (some "Position_hand_of_a_player")⟩,
  ⟨"Position::hand_of_a_player_mut", .plain, (.feature .alloc), ["Position", "Color", "Hand",
    "PartialPosition::hand_of_a_player_mut"], none⟩,
  ⟨"Position::hand", .plain, (.feature .alloc), ["Position", "Piece", "PartialPosition::hand"],
    none⟩,
  ⟨"Position::ply", .plain, (.feature .alloc), ["Position", "PartialPosition::ply"],
    (some "Position_ply")⟩,
  ⟨"Position::piece_at", .plain, (.feature .alloc), ["Position", "Square", "Piece",
    "PartialPosition::piece_at"], none⟩,
  ⟨"Position::Position_piece_at", .plain, (.feature .alloc), ["Position", "Square", "OptionPiece",
    "PartialPosition::PartialPosition_piece_at"], (some "Position_piece_at")⟩,
  ⟨"Position::piece_set", .plain, (.feature .alloc), ["Position", "Square", "Piece",
    "PartialPosition::piece_set"], none⟩,
  ⟨"Position::occupied_bitboard", .plain, (.feature .alloc), ["Position", "Bitboard",
    "PartialPosition::occupied_bitboard"], (some "Position_occupied_bitboard")⟩,
  ⟨"Position::vacant_bitboard", .plain, (.feature .alloc), ["Position", "Bitboard",
    "PartialPosition::vacant_bitboard"], (some "Position_vacant_bitboard")⟩,
  ⟨"Position::player_bitboard", .plain, (.feature .alloc), ["Position", "Color", "Bitboard",
    "PartialPosition::player_bitboard"], (some "Position_player_bitboard")⟩,
  ⟨"Position::piece_bitboard", .plain, (.feature .alloc), ["Position", "Piece", "Bitboard",
    "PartialPosition::piece_bitboard"], (some "Position_piece_bitboard")⟩,
  ⟨"Position::last_move", .plain, (.feature .alloc), ["Position", "Move",
    "PartialPosition::last_move"], none⟩,
  ⟨"Position::last_compact_move", .plain, (.feature .alloc), ["Position", "CompactMove",
    "PartialPosition::last_compact_move"], none⟩,
  ⟨"Position::moves", .plain, (.feature .alloc), ["Position", "Move"], none⟩,
  ⟨"Position::Position_last_compact_move", .plain, (.feature .alloc), ["Position",
    "OptionCompactMove", "PartialPosition::PartialPosition_last_compact_move"],
    (some "Position_last_compact_move")⟩,
  ⟨"Position::make_move", .plain, (.feature .alloc), ["Position", "Move",
    "PartialPosition::make_move"], none⟩,
  ⟨"Position::make_compact_move", .plain, (.feature .alloc), ["Position", "CompactMove"],
    (some "Position_make_compact_move")⟩,
  ⟨"Position::to_sfen_owned", .plain, (.feature .alloc), ["Position", "alloc",
    "PartialPosition::to_sfen_owned"], none⟩,
  ⟨"Position::to_sfen_c", .plain, (.feature .alloc), ["Position", "PartialPosition::to_sfen_c"],
    (some "Position_to_sfen_c")⟩,
  ⟨"Ord for Position", .plain, (.and (.feature .alloc) (.feature .ord)), ["Position",
    "Ord for PartialPosition", "Ord for Move"], none⟩,
  ⟨"Hash for Position", .plain, (.and (.feature .alloc) (.feature .hash)), ["Position",
    "Hash for PartialPosition", "Hash for Move"], none⟩,
  ⟨"PartialPosition", .plain, .always, ["Color", "Hand", "OptionPiece", "Bitboard",
    "OptionCompactMove", "OptionSquare"], none⟩,
  ⟨"PartialPosition::empty", .plain, .always, ["PartialPosition", "Color", "Bitboard",
    "PieceKind", "Bitboard::empty", "PieceKind::NUM", "Color::NUM"], none⟩,
  ⟨"PartialPosition::startpos", .plain, .always, ["PartialPosition", "OptionPiece", "Piece",
    "PieceKind", "Color", "Bitboard", "Square", "Piece::new", "Bitboard::empty", "PieceKind::NUM",
    "Square::all"], none⟩,
  ⟨"PartialPosition::PartialPosition_startpos", .plain, .always, ["PartialPosition",
    "PartialPosition::startpos"], (some "PartialPosition_startpos")⟩,
  ⟨"PartialPosition::side_to_move", .plain, .always, ["PartialPosition", "Color"],
    (some "PartialPosition_side_to_move")⟩,
  ⟨"PartialPosition::side_to_move_set", .plain, .always, ["PartialPosition", "Color"], none⟩,
  ⟨"PartialPosition::hand_of_a_player", .plain, .always, ["PartialPosition", "Color", "Hand"],
    (some "PartialPosition_hand_of_a_player")⟩,
  ⟨"PartialPosition::hand_of_a_player_mut", .plain, .always, ["PartialPosition", "Color", "Hand"],
    none⟩,
  ⟨"PartialPosition::hand", .plain, .always, ["PartialPosition", "Piece",
    "PartialPosition::hand_of_a_player"], none⟩,
  ⟨"PartialPosition::ply", .plain, .always, ["PartialPosition"], (some "PartialPosition_ply")⟩,
  ⟨"PartialPosition::ply_set", .plain, .always, ["PartialPosition"], none⟩,
  ⟨"PartialPosition::piece_at", .plain, .always, ["PartialPosition", "Square", "Piece",
    "PartialPosition::PartialPosition_piece_at"], none⟩,
  ⟨"PartialPosition::PartialPosition_piece_at", .plain, .always, ["PartialPosition", "Square",
    "OptionPiece"], (some "PartialPosition_piece_at")⟩,
  ⟨"PartialPosition::piece_set", .plain, .always, ["PartialPosition", "Square", "Piece",
    "OptionPiece", "Bitboard", "Color", "OptionSquare", "Piece::to_parts",
    "PartialPosition::piece_at"], none⟩,
  ⟨"PartialPosition::occupied_bitboard", .plain, .always, ["PartialPosition", "Bitboard"],
    (some "PartialPosition_occupied_bitboard")⟩,
  ⟨"PartialPosition::vacant_bitboard", .plain, .always, ["PartialPosition", "Bitboard",
    "PartialPosition::occupied_bitboard"], (some "PartialPosition_vacant_bitboard")⟩,
  ⟨"PartialPosition::player_bitboard", .plain, .always, ["PartialPosition", "Color", "Bitboard"],
    (some "PartialPosition_player_bitboard")⟩,
  ⟨"PartialPosition::piece_bitboard", .plain, .always, ["PartialPosition", "Piece", "Bitboard"],
    (some "PartialPosition_piece_bitboard")⟩,
  ⟨"PartialPosition::piece_kind_bitboard", .plain, .always, ["PartialPosition", "PieceKind",
    "Bitboard"], (some "PartialPosition_piece_kind_bitboard")⟩,
  ⟨"PartialPosition::last_move", .plain, .always, ["PartialPosition", "Move",
    "PartialPosition::last_compact_move"], none⟩,
  ⟨"PartialPosition::last_compact_move", .plain, .always, ["PartialPosition", "CompactMove"], none⟩,
  ⟨"PartialPosition::PartialPosition_last_compact_move", .plain, .always, ["PartialPosition",
    "OptionCompactMove"], (some "PartialPosition_last_compact_move")⟩,
  ⟨"PartialPosition::king_position", .plain, .always, ["PartialPosition", "Color", "Square"], none⟩,
  ⟨"PartialPosition::make_move", .plain, .always, ["PartialPosition", "Move",
    "PartialPosition::piece_at", "PartialPosition::hand_of_a_player_mut",
    "PartialPosition::piece_set"], none⟩,
  ⟨"PartialPosition::make_compact_move", .plain, .always, ["PartialPosition", "CompactMove",
    "PartialPosition::make_move"], (some "PartialPosition_make_compact_move")⟩,
  ⟨"PartialPosition::to_sfen", .plain, .always, ["PartialPosition", "Piece"], none⟩,
  ⟨"PartialPosition::to_sfen_owned", .plain, (.feature .alloc), ["PartialPosition", "alloc",
    "PartialPosition::to_sfen"], none⟩,
  ⟨"PartialPosition::to_sfen_c", .plain, .always, ["PartialPosition", "PartialPosition::to_sfen"],
    (some "PartialPosition_to_sfen_c")⟩,
  ⟨"Ord for PartialPosition", .plain, (.feature .ord), ["PartialPosition", "Ord for Color",
    "Ord for Hand", "Ord for OptionPiece", "Ord for OptionCompactMove"], none⟩,
  ⟨"Hash for PartialPosition", .plain, (.feature .hash), ["PartialPosition", "Hash for Color",
    "Hash for Hand", "Hash for OptionPiece", "Hash for OptionCompactMove"], none⟩,
  ⟨"Default for PartialPosition", .plain, .always, ["PartialPosition"], none⟩]

/-- square.rs:11, 19-27, 31-33, 46-58, 62-64, 75-78, 89-92, 104-107, 111-117, 121-127, 139-142,
155-166, 173-178, 186-191, 203-212, 218-226, 238, 248-250, 263, 264, 269-277, 288, 290-298,
300-305, 307, 308: the items, in order. -/
def squareItems : List Item := [
  ⟨"Square", .plain, .always, [], none⟩,
  ⟨"Square::new", .plain, .always, ["Square"], none⟩,
  ⟨"Square::Square_new", .plain, .always, ["OptionSquare", "Square", "Square::new"],
    (some "Square_new")⟩,
  ⟨"Square::new_relative", .plain, .always, ["Color", "Square"], none⟩,
  ⟨"Square::Square_new_relative", .plain, .always, ["Color", "OptionSquare", "Square",
    "Square::new_relative"], (some "Square_new_relative")⟩,
  ⟨"Square::file", .plain, .always, ["Square"], (some "Square_file")⟩,
  ⟨"Square::rank", .plain, .always, ["Square"], (some "Square_rank")⟩,
  ⟨"Square::index", .plain, .always, ["Square"], (some "Square_index")⟩,
  ⟨"Square::relative_rank", .plain, .always, ["Square", "Color"], (some "Square_relative_rank")⟩,
  ⟨"Square::relative_file", .plain, .always, ["Square", "Color"], (some "Square_relative_file")⟩,
  ⟨"Square::flip", .plain, .always, ["Square", "Square::from_u8_unchecked"], (some "Square_flip")⟩,
  ⟨"Square::from_u8", .plain, .always, ["Square", "OptionSquare"], (some "Square_from_u8")⟩,
  ⟨"Square::from_u8_unchecked", .plain, .always, ["Square"], none⟩,
  ⟨"Square::Square_from_u8_unchecked", .plain, .always, ["Square"],
    (some "Square_from_u8_unchecked")⟩,
  ⟨"Square::shift", .plain, .always, ["Square", "Square::from_u8_unchecked"],
    (some "Square_shift")⟩,
  ⟨"Square::array_index", .plain, .always, ["Square", "Square::NUM"], none⟩,
  ⟨"Square::NUM", .plain, .always, ["Square"], none⟩,
  ⟨"Square::all", .plain, .always, ["Square", "Square::from_u8_unchecked"], none⟩,
  ⟨"Ord for Square", .plain, (.feature .ord), ["Square"], none⟩,
  ⟨"Hash for Square", .plain, (.feature .hash), ["Square"], none⟩,
  ⟨"ToUsi for Square", .plain, .always, ["ToUsi", "Square"], none⟩,
  ⟨"OptionSquare", .plain, .always, [], none⟩,
  ⟨"From<Option<Square>> for OptionSquare", .plain, .always, ["Square", "OptionSquare"], none⟩,
  ⟨"From<OptionSquare> for Option<Square>", .plain, .always, ["OptionSquare", "Square"], none⟩,
  ⟨"Ord for OptionSquare", .plain, (.feature .ord), ["OptionSquare"], none⟩,
  ⟨"Hash for OptionSquare", .plain, (.feature .hash), ["OptionSquare"], none⟩]

/-- to_usi.rs:4-21, 9, 14-20: the items, in order. -/
def toUsiItems : List Item := [
  ⟨"ToUsi", .plain, .always, [], none⟩,
  ⟨"ToUsi::to_usi", .required, .always, ["ToUsi"], none⟩,
  ⟨"ToUsi::to_usi_owned", .provided, (.feature .alloc), ["ToUsi", "alloc", "ToUsi::to_usi"], none⟩]

/-- lib.rs:9-95: all items of shogi_core.  Derived `impl`s are counted with their types, `PartialOrd`
with `Ord` (annotated_derive.rs:48-107). -/
def items : List Item :=
  libItems ++ bitboardItems ++ colorItems ++ gameResolutionItems ++ handItems ++
  illegalMoveKindItems ++ legalityItems ++ mvItems ++ pieceItems ++
  pieceKindItems ++ positionItems ++ squareItems ++ toUsiItems

/-- The items of a build of shogi_core with these features (lib.rs:9-95). -/
def present (on : List Feature) : List Item := items.filter fun i => i.cfg.holds on

/-! ### The C library -/

/-- shogi_core_c/src/lib.rs:1-11: what the crate defines beside re-exporting shogi_core. -/
inductive CItem where
  /-- shogi_core_c/src/lib.rs:1-4 `feature(alloc_error_handler)` -/
  | errorHandlerAllowed
  /-- shogi_core_c/src/lib.rs:5: the crate std is not linked -/
  | noStd
  /-- shogi_core_c/src/lib.rs:7-8 `extern crate alloc` -/
  | externAlloc
  /-- no_std.rs:3-10, 12-18, 20-30, 34-41 -/
  | memcpy | memset | memcmp | bzero
  /-- no_std.rs:45-48 `#[panic_handler]` -/
  | panicHandler
  /-- no_std.rs:52-56 `#[alloc_error_handler]` -/
  | errorHandler
  /-- no_std.rs:60-114 `#[global_allocator]` -/
  | globalAllocator
  deriving DecidableEq, Repr

/-- The conditions of shogi_core_c/src/lib.rs:1-11 and no_std.rs:52, 60; the items of no_std.rs are
there when its module is (lib.rs:10-11). -/
def CItem.cfg : CItem → Cfg CFeature
  | .errorHandlerAllowed => .and (.feature .alloc) (.not (.feature .std))
  | .noStd => .not (.feature .std)
  | .externAlloc => .feature .alloc
  | .memcpy | .memset | .memcmp | .bzero | .panicHandler => .not (.feature .std)
  | .errorHandler | .globalAllocator => .and (.not (.feature .std)) (.feature .alloc)

/-! ### The C header -/

/-- The macros of include/shogi_core.h:28, 284, 298, 373 on which declarations depend. -/
inductive Macro where
  | DEFINE_ALLOC | DEFINE_EXPERIMENTAL
  deriving DecidableEq, Repr

/-- include/shogi_core.h:28-30, 284-289, 298-303, 373-389: the macro on which the declaration of a
name depends.  No other declaration depends on one. -/
def headerGuard (name : String) : Option Macro :=
  if name = "Game" ∨ name = "Position" then some .DEFINE_ALLOC
  else if name = "PieceKind_OPTION_NUM" ∨ name = "Piece_NUM" then some .DEFINE_EXPERIMENTAL
  else none

/-- The names of types and constants declared when these macros are defined
(include/shogi_core.h:26-479). -/
def declared (macros : List Macro) : List String :=
  (typedefs.map Prod.fst ++ defines.map Prod.fst).filter fun n =>
    match headerGuard n with
    | none => true
    | some m => macros.contains m

end ShogiCore
