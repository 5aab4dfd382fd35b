import Verif.Model.Color
import Verif.Model.PieceKind

/- Models shogi_core/src/piece.rs. -/

namespace ShogiCore

/-- piece.rs:21 `struct Piece(NonZeroU8)`: the raw byte (validity is a separate predicate). -/
structure Piece where
  val : U8
  deriving DecidableEq, Repr

/-- piece.rs:31 `struct OptionPiece(u8)`. -/
structure OptionPiece where
  val : U8
  deriving DecidableEq, Repr

namespace OptionPiece

/-- piece.rs:177-182 `From<Option<Piece>> for OptionPiece`. -/
def ofOption (arg : Option Piece) : OptionPiece :=
  ⟨match arg with
   | some result => result.val
   | none => 0⟩

/-- piece.rs:187-189 `From<OptionPiece> for Option<Piece>`. -/
def toOption (arg : OptionPiece) : Option Piece :=
  if arg.val = 0 then none else some ⟨arg.val⟩

end OptionPiece

namespace Piece

variable [Profile]

/-- piece.rs:36-45 `Piece::new` (and `Piece_new`, 48-50). -/
def new (piece_kind : PieceKind) (color : Color) : Res Piece := do
  let disc := piece_kind.toU8
  let value ← cadd disc (match color with
    | .Black => 0
    | .White => 16)
  return ⟨← nonzero_new_unchecked value⟩

omit [Profile] in
/-- piece.rs:54-66 `Piece::to_parts`. -/
def to_parts (self : Piece) : Res (PieceKind × Color) := do
  let data := self.val
  let disc := data &&& 15
  let k ← PieceKind.from_u8_unchecked disc
  return (k, if 16 ≤ data.toNat then .White else .Black)

omit [Profile] in
/-- piece.rs:71-73 `Piece::piece_kind`. -/
def piece_kind (self : Piece) : Res PieceKind := do return (← self.to_parts).1

omit [Profile] in
/-- piece.rs:78-80 `Piece::color`. -/
def color (self : Piece) : Res Color := do return (← self.to_parts).2

omit [Profile] in
/-- piece.rs:85-87 `Piece::as_u8`. -/
def as_u8 (self : Piece) : U8 := self.val

/-- piece.rs:91-94 `Piece::promote`. -/
def promote (self : Piece) : Res (Option Piece) := do
  let (piece_kind, color) ← self.to_parts
  match piece_kind.promote with
  | none => return none
  | some k => return some (← new k color)

/-- piece.rs:105-108 `Piece::unpromote`. -/
def unpromote (self : Piece) : Res (Option Piece) := do
  let (piece_kind, color) ← self.to_parts
  match piece_kind.unpromote with
  | none => return none
  | some k => return some (← new k color)

omit [Profile] in
/-- piece.rs:119-121 `Piece::from_u8_unchecked`. -/
def from_u8_unchecked (value : U8) : Res Piece := do
  return ⟨← nonzero_new_unchecked value⟩

/-- piece.rs:129-135 `Piece::array_index` (feature `experimental`, `NUM = 31`). -/
def array_index (self : Piece) : Res Usize := do
  let result ← csub (cast Profile.bits self.val : Usize) 1
  if 31 ≤ result.toNat then unreachable_unchecked else
  return result

/-- piece.rs:161-167, the two nested loops of `Piece::all` over (kind, colour) pairs,
writing at a running index. -/
def all_loop : List (PieceKind × Color) → Nat → Vector Piece 28 → Res (Vector Piece 28)
  | [], _, result => .ok result
  | (k, c) :: rest, index, result => do
    let p ← new k c
    let result' ← setUnchecked result index p
    all_loop rest (index + 1) result'

/-- piece.rs:156-169 `Piece::all`. -/
def all : Res (Vector Piece 28) := do
  let p0 ← new .Pawn .Black
  all_loop (PieceKind.all.flatMap fun k => Color.all.map fun c => (k, c)) 0
    (Vector.replicate 28 p0)

/-- piece.rs:195-227 `ToUsi for Piece`. -/
def to_usi {W : Type} [Write W] (self : Piece) : FmtM W Unit := do
  let (piece_kind, color) ← FmtM.lift self.to_parts
  if PieceKind.ProPawn.toU8.toNat ≤ piece_kind.toU8.toNat then
    let table := ascii "+P+L+N+S+B+R+p+l+n+s+b+r"
    let index : Usize := match color with
      | .Black => 0
      | .White => 6
    let s ← FmtM.lift (cadd index (cast Profile.bits piece_kind.toU8))
    let index ← FmtM.lift (csub s (cast Profile.bits PieceKind.ProPawn.toU8))
    FmtM.lift (debug_assert (.ok (decide (index.toNat < 12))))
    let lo ← FmtM.lift (cmul (2 : Usize) index)
    let hi ← FmtM.lift (cadd lo (2 : Usize))
    write_str (← FmtM.lift (PieceKind.sliceUnchecked table lo.toNat hi.toNat))
  else
    FmtM.lift (debug_assert (.ok (decide (piece_kind.toU8.toNat ≤ PieceKind.King.toU8.toNat))))
    let symbols := ascii "PLNSGBRKplnsgbrk"
    let offset : Usize := match color with
      | .Black => 0
      | .White => 8
    let s ← FmtM.lift (cadd offset (cast Profile.bits piece_kind.toU8))
    let i ← FmtM.lift (csub s 1)
    let c ← FmtM.lift (PieceKind.byteUnchecked symbols i.toNat)
    write_ascii_byte c

end Piece
end ShogiCore
