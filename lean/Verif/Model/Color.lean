import Verif.Model.Common

/- Models shogi_core/src/color.rs. -/

namespace ShogiCore

/-- color.rs:9-18 `enum Color` (`repr(u8)`, Black = 1, White = 2). -/
inductive Color where
  | Black
  | White
  deriving DecidableEq, Repr

namespace Color

/-- color.rs:13,17: `self as u8`. -/
def toU8 : Color → U8
  | .Black => 1
  | .White => 2

/-- `core::mem::transmute::<u8, Color>` (color.rs:34): UB unless a valid discriminant. -/
def transmute (v : U8) : Res Color :=
  if v = 1 then .ok .Black else if v = 2 then .ok .White else .ub

/-- color.rs:30-35 `Color::flip`. -/
def flip (self : Color) : Res Color := transmute (self.toU8 ^^^ 3)

/-- color.rs:41-48 `Color::array_index`. -/
def array_index [Profile] (self : Color) : Res Usize := do
  let result ← csub (cast Profile.bits self.toU8) 1
  if 2 ≤ result.toNat then unreachable_unchecked else
  return result

/-- color.rs:61 `Color::NUM`. -/
def NUM : Nat := 2

/-- color.rs:64-66 `Color::all`. -/
def all : List Color := [.Black, .White]

/-- color.rs:73-78 `ToUsi for Color`. -/
def to_usi {W : Type} [Write W] (self : Color) : FmtM W Unit :=
  write_str (match self with
    | .Black => ascii "b"
    | .White => ascii "w")

end Color
end ShogiCore
