import Verif.Model.Features

/- What the features of the two crates promise. -/

namespace ShogiCore

/-! ### What an item rests on -/

/-- The definition of the first item mentions the second, directly or through others. -/
inductive Reaches : String → String → Prop
  | refl (n : String) : Reaches n n
  | step {i : Item} {u v : String} : i ∈ items → u ∈ i.uses → Reaches u v → Reaches i.name v

/-- The types that can be compared and hashed; `c_compat::OptionPieceKind` is the only type of the
crate that cannot. -/
def comparable : List String := [
  "Bitboard", "ByteSwappedBitboard", "Color", "GameResolution", "OptionGameResolution", "Hand",
  "IllegalMoveKind", "ResultUnitIllegalMoveKind", "PositionStatus", "Move", "CompactMove",
  "OptionCompactMove", "Piece", "OptionPiece", "PieceKind", "Game", "PartialGame", "Position",
  "PartialPosition", "Square", "OptionSquare"]

/-- What the documentation calls experimental. -/
def experimentalNames : List String :=
  ["Piece::array_index", "Piece::NUM", "PieceKind::option_array_index", "PieceKind::OPTION_NUM"]

/-! ### Implementations of traits -/

/-- The item is a method of the trait. -/
def Item.methodOf (trait : String) (i : Item) : Prop :=
  i.kind ≠ .plain ∧ i.uses.head? = some trait

instance (t : String) (i : Item) : Decidable (i.methodOf t) := instDecidableAnd

/-- An `impl` of the trait that defines the methods `ms` compiles against a build with the features
`on`: it defines all required methods, and only methods of the trait. -/
def Implements (trait : String) (on : List Feature) (ms : List String) : Prop :=
  (∀ i ∈ present on, i.methodOf trait → i.kind = .required → i.name ∈ ms) ∧
  ∀ m ∈ ms, ∃ i ∈ present on, i.name = m ∧ i.methodOf trait

/-! ### Linking the C library -/

/-- The C library has the item when its features are `c`. -/
def CItem.there (c : List CFeature) (x : CItem) : Prop := x.cfg.holds c = true

/-- What rustc and the linker ask of the C library with features `c` when shogi_core has `core`. -/
structure Links (c : List CFeature) (core : List Feature) : Prop where
  /-- one panic handler: that of std or its own -/
  panic : CItem.panicHandler.there c ↔ CItem.noStd.there c
  /-- one allocator and one handler of allocation errors, if anything may allocate -/
  allocator : .alloc ∈ core ∨ CItem.externAlloc.there c → CItem.noStd.there c →
    CItem.globalAllocator.there c ∧ CItem.errorHandler.there c
  /-- not two of them -/
  single : ¬ CItem.noStd.there c →
    ¬ CItem.globalAllocator.there c ∧ ¬ CItem.errorHandler.there c
  /-- the attribute is accepted -/
  unstable : CItem.errorHandler.there c → CItem.errorHandlerAllowed.there c
  /-- memory functions: those of libc, which std links, or its own -/
  memory : ∀ x ∈ [CItem.memcpy, .memset, .memcmp, .bzero], x.there c ↔ CItem.noStd.there c

/-! ### The header -/

/-- The constants of the header and of the crate. -/
def constantNames : List (String × String) := [
  ("Color_NUM", "Color::NUM"), ("PieceKind_OPTION_NUM", "PieceKind::OPTION_NUM"),
  ("Square_NUM", "Square::NUM"), ("Piece_NUM", "Piece::NUM"),
  ("Hand_NUM_HAND_PIECES", "Hand::NUM_HAND_PIECES")]

/-- The macros fit the features. -/
def Fits (macros : List Macro) (on : List Feature) : Prop :=
  (.DEFINE_ALLOC ∈ macros ↔ .alloc ∈ on) ∧ (.DEFINE_EXPERIMENTAL ∈ macros ↔ .experimental ∈ on)

end ShogiCore
