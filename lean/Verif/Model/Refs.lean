import Verif.Model.Layout

/- Models the operators on bitboards that take references (bitboard.rs:380-450, 498-512), and
`Hand::as_u64` on either byte order. -/

namespace ShogiCore

/-- hand.rs:138-141 `Hand::as_u64` on any target: the bytes of the array read as a number in the
byte order of the target. -/
def Hand.as_u64_on [Target] (self : Hand) : U64 :=
  if Target.bigEndian then
    self.cells[0] ++ self.cells[1] ++ self.cells[2] ++ self.cells[3] ++
    self.cells[4] ++ self.cells[5] ++ self.cells[6] ++ self.cells[7]
  else
    self.cells[7] ++ self.cells[6] ++ self.cells[5] ++ self.cells[4] ++
    self.cells[3] ++ self.cells[2] ++ self.cells[1] ++ self.cells[0]

/-- hand.rs:193-195 `PartialEq for Hand` on any target. -/
def Hand.eq_on [Target] (self other : Hand) : Bool := self.as_u64_on == other.as_u64_on

namespace Bitboard

/-- bitboard.rs:498-512 `Not for &Bitboard`. -/
def not_ref (self : Bitboard) : Bitboard := self.not

/-- bitboard.rs:381-388 `&` of a bitboard and a reference (`self & *rhs`). -/
def bitand_val_ref (self rhs : Bitboard) : Bitboard := self.bitand rhs
/-- bitboard.rs:389-396 `&` of a reference and a bitboard (`*self & rhs`). -/
def bitand_ref_val (self rhs : Bitboard) : Bitboard := self.bitand rhs
/-- bitboard.rs:397-404 `&` of two references (`*self & *rhs`). -/
def bitand_ref_ref (self rhs : Bitboard) : Bitboard := self.bitand rhs
/-- bitboard.rs:411-416 `&=` with a reference (`*self = *self & *rhs`): the new `*self`. -/
def bitand_assign_ref (self rhs : Bitboard) : Bitboard := self.bitand rhs
/-- bitboard.rs:423-428 `&=` with a reference to a square: the new `*self`. -/
def bitand_assign_sq_ref [Profile] (self : Bitboard) (rhs : Square) : Res Bitboard := do
  return self.bitand (← single rhs)

/-- bitboard.rs:381-388 `|` of a bitboard and a reference (`self | *rhs`). -/
def bitor_val_ref (self rhs : Bitboard) : Bitboard := self.bitor rhs
/-- bitboard.rs:389-396 `|` of a reference and a bitboard (`*self | rhs`). -/
def bitor_ref_val (self rhs : Bitboard) : Bitboard := self.bitor rhs
/-- bitboard.rs:397-404 `|` of two references (`*self | *rhs`). -/
def bitor_ref_ref (self rhs : Bitboard) : Bitboard := self.bitor rhs
/-- bitboard.rs:411-416 `|=` with a reference (`*self = *self | *rhs`): the new `*self`. -/
def bitor_assign_ref (self rhs : Bitboard) : Bitboard := self.bitor rhs
/-- bitboard.rs:423-428 `|=` with a reference to a square: the new `*self`. -/
def bitor_assign_sq_ref [Profile] (self : Bitboard) (rhs : Square) : Res Bitboard := do
  return self.bitor (← single rhs)

/-- bitboard.rs:381-388 `^` of a bitboard and a reference (`self ^ *rhs`). -/
def bitxor_val_ref (self rhs : Bitboard) : Bitboard := self.bitxor rhs
/-- bitboard.rs:389-396 `^` of a reference and a bitboard (`*self ^ rhs`). -/
def bitxor_ref_val (self rhs : Bitboard) : Bitboard := self.bitxor rhs
/-- bitboard.rs:397-404 `^` of two references (`*self ^ *rhs`). -/
def bitxor_ref_ref (self rhs : Bitboard) : Bitboard := self.bitxor rhs
/-- bitboard.rs:411-416 `^=` with a reference (`*self = *self ^ *rhs`): the new `*self`. -/
def bitxor_assign_ref (self rhs : Bitboard) : Bitboard := self.bitxor rhs
/-- bitboard.rs:423-428 `^=` with a reference to a square: the new `*self`. -/
def bitxor_assign_sq_ref [Profile] (self : Bitboard) (rhs : Square) : Res Bitboard := do
  return self.bitxor (← single rhs)

end Bitboard
end ShogiCore
