import Verif.Model.Color

/- Models shogi_core/src/square.rs. -/

namespace ShogiCore

/-- square.rs:11 `struct Square(NonZeroU8)`: the raw byte.  Which bytes are legitimate is
a separate predicate (`Square.Valid`, Spec), not part of the type. -/
structure Square where
  val : U8
  deriving DecidableEq, Repr

/-- square.rs:288 `struct OptionSquare(u8)`. -/
structure OptionSquare where
  val : U8
  deriving DecidableEq, Repr

namespace OptionSquare

/-- square.rs:292-297 `From<Option<Square>> for OptionSquare`. -/
def ofOption (arg : Option Square) : OptionSquare :=
  ⟨match arg with
   | some result => result.val
   | none => 0⟩

/-- square.rs:302-304 `From<OptionSquare> for Option<Square>` (`NonZeroU8::new(arg.0)?`). -/
def toOption (arg : OptionSquare) : Option Square :=
  if arg.val = 0 then none else some ⟨arg.val⟩

end OptionSquare

namespace Square

/-- square.rs:257 / 174 / 187: `matches!(value, 1..=81)`. -/
def inRange (v : U8) : Bool := decide (1 ≤ v.toNat) && decide (v.toNat ≤ 81)

variable [Profile]

/-- square.rs:19-27 `Square::new`. -/
def new (file rank : U8) : Res (Option Square) :=
  if 9 ≤ (file - 1).toNat ∨ 9 ≤ (rank - 1).toNat then .ok none
  else do
    let a ← cmul file 9
    let b ← cadd a rank
    let c ← csub b 9
    return some ⟨← nonzero_new_unchecked c⟩

/-- square.rs:46-58 `Square::new_relative`. -/
def new_relative (file rank : U8) (color : Color) : Res (Option Square) :=
  if 9 ≤ (file - 1).toNat ∨ 9 ≤ (rank - 1).toNat then .ok none
  else do
    let a ← cmul file 9
    let b ← cadd a rank
    let relative_index ← csub b 9
    let v ← match color with
      | .Black => .ok relative_index
      | .White => csub 82 relative_index
    return some ⟨← nonzero_new_unchecked v⟩

/-- square.rs:254-260 `Square::sanity_check`. -/
def sanity_check (self : Square) : Res Unit := do
  debug_assert (.ok (inRange self.val))
  if !inRange self.val then unreachable_unchecked else .ok ()

/-- square.rs:75-78 `Square::file`. -/
def file (self : Square) : Res U8 := do
  self.sanity_check
  let a ← cadd self.val 8
  let b ← cmul (cast 32 a : U32) 57
  return cast 8 (b >>> 9)

/-- square.rs:89-92 `Square::rank`. -/
def rank (self : Square) : Res U8 := do
  self.sanity_check
  let a ← cadd self.val 9
  let f ← self.file
  let b ← cmul 9 f
  csub a b

/-- square.rs:104-107 `Square::index`. -/
def index (self : Square) : Res U8 := do
  self.sanity_check
  return self.val

/-- square.rs:111-117 `Square::relative_rank`. -/
def relative_rank (self : Square) (color : Color) : Res U8 := do
  let rank ← self.rank
  match color with
  | .Black => .ok rank
  | .White => csub 10 rank

/-- square.rs:121-127 `Square::relative_file`. -/
def relative_file (self : Square) (color : Color) : Res U8 := do
  let file ← self.file
  match color with
  | .Black => .ok file
  | .White => csub 10 file

/-- square.rs:173-178 `Square::from_u8_unchecked` (also the C copy, 186-191). -/
def from_u8_unchecked (value : U8) : Res Square := do
  if !inRange value then unreachable_unchecked else
  return ⟨← nonzero_new_unchecked value⟩

/-- square.rs:139-142 `Square::flip`. -/
def flip (self : Square) : Res Square := do
  from_u8_unchecked (← csub 82 self.val)

/-- square.rs:155-166 `Square::from_u8`; the transmute is to `OptionSquare`, which has no
invalid bit patterns. -/
def from_u8 (value : U8) : Option Square :=
  if (cast 32 value : U32).toNat ≤ 81 then OptionSquare.toOption ⟨value⟩ else none

/-- square.rs:207: `matches!(x, 0..=8)` at type `i8`. -/
def in0to8 (x : I8) : Bool := decide (0 ≤ x.toInt) && decide (x.toInt ≤ 8)

/-- square.rs:203-212 `Square::shift`. -/
def shift (self : Square) (file_delta rank_delta : I8) : Res (Option Square) := do
  self.sanity_check
  let file_m1 : I8 := ((← self.file) + file_delta) - 1
  let rank_m1 : I8 := ((← self.rank) + rank_delta) - 1
  if !in0to8 file_m1 || !in0to8 rank_m1 then
    return none
  else
    let a ← cmuls file_m1 9
    let b ← cadds a rank_m1
    let c ← cadds b 1
    return some (← from_u8_unchecked c)

/-- square.rs:218-226 `Square::array_index`. -/
def array_index (self : Square) : Res Usize := do
  self.sanity_check
  let r ← csub self.val 1
  let result : Usize := cast Profile.bits r
  if 81 ≤ result.toNat then unreachable_unchecked else
  return result

/-- square.rs:238 `Square::NUM`. -/
def NUM : Nat := 81

/-- square.rs:248-250 `Square::all`: the items the iterator yields, in order. -/
def all : Res (List Square) :=
  (List.range' 1 81).mapM (fun index => from_u8_unchecked (BitVec.ofNat 8 index))

/-- square.rs:269-277 `ToUsi for Square`. -/
def to_usi {W : Type} [Write W] (self : Square) : FmtM W Unit := do
  write_ascii_byte (← FmtM.lift (do cadd (asciiByte '0') (← self.file)))
  write_ascii_byte (← FmtM.lift (do csub (← cadd (asciiByte 'a') (← self.rank)) 1))

end Square
end ShogiCore
