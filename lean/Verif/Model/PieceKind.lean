import Verif.Model.Common

/- Models shogi_core/src/piece_kind.rs. -/

namespace ShogiCore

/-- piece_kind.rs:9-108 `enum PieceKind` (`repr(u8)`, discriminants 1..=14 in this order). -/
inductive PieceKind where
  | Pawn | Lance | Knight | Silver | Gold | Bishop | Rook | King
  | ProPawn | ProLance | ProKnight | ProSilver | ProBishop | ProRook
  deriving DecidableEq, Repr

namespace PieceKind

/-- piece_kind.rs:16-107: `self as u8`. -/
def toU8 : PieceKind → U8
  | .Pawn => 1 | .Lance => 2 | .Knight => 3 | .Silver => 4 | .Gold => 5
  | .Bishop => 6 | .Rook => 7 | .King => 8
  | .ProPawn => 9 | .ProLance => 10 | .ProKnight => 11 | .ProSilver => 12
  | .ProBishop => 13 | .ProRook => 14

/-- piece_kind.rs:116-133 `PieceKind::promote`. -/
def promote : PieceKind → Option PieceKind
  | .Pawn => some .ProPawn
  | .Lance => some .ProLance
  | .Knight => some .ProKnight
  | .Silver => some .ProSilver
  | .Gold => none
  | .Bishop => some .ProBishop
  | .Rook => some .ProRook
  | .King => none
  | .ProPawn => none
  | .ProLance => none
  | .ProKnight => none
  | .ProSilver => none
  | .ProBishop => none
  | .ProRook => none

/-- piece_kind.rs:139-156 `PieceKind::unpromote`. -/
def unpromote : PieceKind → Option PieceKind
  | .Pawn => none
  | .Lance => none
  | .Knight => none
  | .Silver => none
  | .Gold => none
  | .Bishop => none
  | .Rook => none
  | .King => none
  | .ProPawn => some .Pawn
  | .ProLance => some .Lance
  | .ProKnight => some .Knight
  | .ProSilver => some .Silver
  | .ProBishop => some .Bishop
  | .ProRook => some .Rook

/-- piece_kind.rs:187-189 `PieceKind::from_u8_unchecked` (a transmute): UB unless `repr`
is one of the discriminants 1..=14. Also models `PieceKind_from_u8_unchecked` (198-200). -/
def from_u8_unchecked (repr : U8) : Res PieceKind :=
  match repr.toNat with
  | 1 => .ok .Pawn | 2 => .ok .Lance | 3 => .ok .Knight | 4 => .ok .Silver
  | 5 => .ok .Gold | 6 => .ok .Bishop | 7 => .ok .Rook | 8 => .ok .King
  | 9 => .ok .ProPawn | 10 => .ok .ProLance | 11 => .ok .ProKnight
  | 12 => .ok .ProSilver | 13 => .ok .ProBishop | 14 => .ok .ProRook
  | _ => .ub

/-- piece_kind.rs:164-171 `PieceKind::from_u8`. -/
def from_u8 (repr : U8) : Res (Option PieceKind) :=
  if 1 ≤ repr.toNat ∧ repr.toNat ≤ 14 then do
    return some (← from_u8_unchecked repr)
  else .ok none

/-- piece_kind.rs:220-227 `PieceKind::array_index`. -/
def array_index [Profile] (self : PieceKind) : Res Usize := do
  let result ← csub (cast Profile.bits self.toU8) 1
  if 14 ≤ result.toNat then unreachable_unchecked else
  return result

/-- piece_kind.rs:242 `PieceKind::NUM`. -/
def NUM : Nat := 14

/-- piece_kind.rs:247-252 `PieceKind::option_array_index` (feature `experimental`). -/
def option_array_index [Profile] (arg : Option PieceKind) : Usize :=
  match arg with
  | some result => cast Profile.bits result.toU8
  | none => 0

/-- piece_kind.rs:256 `PieceKind::OPTION_NUM` (feature `experimental`). -/
def OPTION_NUM : Nat := 15

/-- piece_kind.rs:259-276 `PieceKind::all`. -/
def all : List PieceKind :=
  [.Pawn, .Lance, .Knight, .Silver, .Gold, .Bishop, .Rook, .King,
   .ProPawn, .ProLance, .ProKnight, .ProSilver, .ProBishop, .ProRook]

/-- `table.get_unchecked(a..b)` on a byte string: UB if out of range (piece_kind.rs:294,
piece.rs:210). -/
def sliceUnchecked (table : List U8) (a b : Nat) : Res (List U8) :=
  if a ≤ b ∧ b ≤ table.length then .ok ((table.drop a).take (b - a)) else .ub

/-- `*symbols.get_unchecked(i)` on a byte string: UB if out of range (piece_kind.rs:300,
piece.rs:221). -/
def byteUnchecked (table : List U8) (i : Nat) : Res U8 :=
  if h : i < table.length then .ok table[i] else .ub

variable [Profile]

/-- piece_kind.rs:286-304 `ToUsi for PieceKind`. -/
def to_usi {W : Type} [Write W] (self : PieceKind) : FmtM W Unit := do
  if PieceKind.ProPawn.toU8.toNat ≤ self.toU8.toNat then
    let table := ascii "+P+L+N+S+B+R"
    let index ← FmtM.lift (csub (cast Profile.bits self.toU8 : Usize) (cast Profile.bits PieceKind.ProPawn.toU8))
    FmtM.lift (debug_assert (.ok (decide (index.toNat < 12))))
    let lo ← FmtM.lift (cmul (2 : Usize) index)
    let hi ← FmtM.lift (cadd lo (2 : Usize))
    write_str (← FmtM.lift (sliceUnchecked table lo.toNat hi.toNat))
  else
    FmtM.lift (debug_assert (.ok (decide (self.toU8.toNat ≤ PieceKind.King.toU8.toNat))))
    let symbols := ascii "PLNSGBRK"
    let i ← FmtM.lift (csub (cast Profile.bits self.toU8 : Usize) 1)
    let c ← FmtM.lift (byteUnchecked symbols i.toNat)
    write_ascii_byte c

end PieceKind

/-- piece_kind.rs:319 `struct OptionPieceKind(u8)`. -/
structure OptionPieceKind where
  val : U8
  deriving DecidableEq, Repr

namespace OptionPieceKind

/-- piece_kind.rs:323-328 `From<Option<PieceKind>> for OptionPieceKind`. -/
def ofOption (arg : Option PieceKind) : OptionPieceKind :=
  ⟨match arg with
   | some result => result.toU8
   | none => 0⟩

/-- piece_kind.rs:333-341 `From<OptionPieceKind> for Option<PieceKind>`. -/
def toOption (arg : OptionPieceKind) : Res (Option PieceKind) :=
  if arg.val = 0 then .ok none
  else do return some (← PieceKind.from_u8_unchecked arg.val)

end OptionPieceKind
end ShogiCore
