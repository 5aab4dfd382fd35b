import Verif.Model.Square

/- Models shogi_core/src/bitboard.rs. -/

namespace ShogiCore

/-- bitboard.rs:12 `struct Bitboard([u64; 2])`; the two array cells (only ever indexed by
the literals 0 and 1) are two fields. -/
structure Bitboard where
  w0 : U64
  w1 : U64
  deriving DecidableEq, Repr

/-- bitboard.rs:530 `struct ByteSwappedBitboard([u64; 2])`. -/
structure ByteSwappedBitboard where
  w0 : U64
  w1 : U64
  deriving DecidableEq, Repr

namespace Bitboard

/-- bitboard.rs:15 `MASK0 = (1 << 63) - 1`. -/
def MASK0 : U64 := ((1 : U64) <<< 63) - 1
/-- bitboard.rs:16 `MASK1 = (1 << 18) - 1`. -/
def MASK1 : U64 := ((1 : U64) <<< 18) - 1

/-- bitboard.rs:28-30 `Bitboard::empty` (also `Default`, `Bitboard_empty`). -/
def empty : Bitboard := ⟨0, 0⟩

/-- bitboard.rs:80-82 `Bitboard::count`. -/
def count [Profile] (self : Bitboard) : Res U8 := do
  let s ← cadd (count_ones self.w0) (count_ones self.w1)
  return cast 8 s

/-- bitboard.rs:98-100 `Bitboard::is_empty`. -/
def is_empty (self : Bitboard) : Bool := self.w0 == 0 && self.w1 == 0

/-- bitboard.rs:132-137 `Bitboard::flip`. -/
def flip (self : Bitboard) : Bitboard :=
  let fst_rev := ((self.w0 >>> 17) ||| (self.w1 <<< 46)) &&& ~~~(1 : U64)
  let snd_rev := self.w0 <<< 46
  ⟨reverse_bits fst_rev, reverse_bits snd_rev⟩

/-- bitboard.rs:186-189 `Bitboard::to_u128`. -/
def to_u128 (self : Bitboard) : U128 := (cast 128 self.w1) <<< 64 ||| cast 128 self.w0

/-- bitboard.rs:200-204 `Bitboard::from_u128_unchecked`. -/
def from_u128_unchecked (a : U128) : Bitboard := ⟨cast 64 a, cast 64 (a >>> 64)⟩

/-- bitboard.rs:248-250 `Bitboard::or`. -/
def or (self other : Bitboard) : Bitboard := ⟨self.w0 ||| other.w0, self.w1 ||| other.w1⟩
/-- bitboard.rs:255-257 `Bitboard::and`. -/
def and (self other : Bitboard) : Bitboard := ⟨self.w0 &&& other.w0, self.w1 &&& other.w1⟩
/-- bitboard.rs:262-264 `Bitboard::xor`. -/
def xor (self other : Bitboard) : Bitboard := ⟨self.w0 ^^^ other.w0, self.w1 ^^^ other.w1⟩
/-- bitboard.rs:269-271 `Bitboard::andnot` (`!self & other`). -/
def andnot (self other : Bitboard) : Bitboard :=
  ⟨~~~self.w0 &&& other.w0, ~~~self.w1 &&& other.w1⟩

/-- bitboard.rs:376-378 instantiated at 432-436: `&` (the reference variants 381-404 and
`Bitboard_bitand` 453-455 call it). -/
def bitand (self rhs : Bitboard) : Bitboard := ⟨self.w0 &&& rhs.w0, self.w1 &&& rhs.w1⟩
/-- bitboard.rs:376-378 instantiated at 437-441: `|`. -/
def bitor (self rhs : Bitboard) : Bitboard := ⟨self.w0 ||| rhs.w0, self.w1 ||| rhs.w1⟩
/-- bitboard.rs:376-378 instantiated at 442-446: `^`. -/
def bitxor (self rhs : Bitboard) : Bitboard := ⟨self.w0 ^^^ rhs.w0, self.w1 ^^^ rhs.w1⟩

/-- bitboard.rs:405-410: `&=` with a bitboard (new value of `self`). -/
def bitand_assign (self rhs : Bitboard) : Bitboard := self.bitand rhs
/-- bitboard.rs:405-410: `|=` with a bitboard. -/
def bitor_assign (self rhs : Bitboard) : Bitboard := self.bitor rhs
/-- bitboard.rs:405-410: `^=` with a bitboard. -/
def bitxor_assign (self rhs : Bitboard) : Bitboard := self.bitxor rhs

/-- bitboard.rs:493-495 `Not for Bitboard` (also the reference variant and `Bitboard_not`). -/
def not (self : Bitboard) : Bitboard :=
  ⟨~~~self.w0 &&& (((1 : U64) <<< 63) - 1), ~~~self.w1 &&& (((1 : U64) <<< 18) - 1)⟩

/-- bitboard.rs:276-278 `Bitboard::swap_bytes`. -/
def swap_bytes (self : Bitboard) : ByteSwappedBitboard :=
  ⟨swap_bytes64 self.w1, swap_bytes64 self.w0⟩

variable [Profile]

/-- bitboard.rs:53-61 `Bitboard::single_inlined`. -/
def single_inlined (square : Square) : Res Bitboard := do
  let index ← square.array_index
  if index.toNat < 63 then
    return ⟨← cshl 1 index.toNat, 0⟩
  else
    let k ← csub index 63
    return ⟨0, ← cshl 1 k.toNat⟩

/-- bitboard.rs:48-50 `Bitboard::single` (and `Bitboard_single`). -/
def single (square : Square) : Res Bitboard := single_inlined square

/-- bitboard.rs:417-422: `&=` with a square. -/
def bitand_assign_sq (self : Bitboard) (rhs : Square) : Res Bitboard := do
  return self.bitand (← single rhs)
/-- bitboard.rs:417-422: `|=` with a square. -/
def bitor_assign_sq (self : Bitboard) (rhs : Square) : Res Bitboard := do
  return self.bitor (← single rhs)
/-- bitboard.rs:417-422: `^=` with a square. -/
def bitxor_assign_sq (self : Bitboard) (rhs : Square) : Res Bitboard := do
  return self.bitxor (← single rhs)

/-- bitboard.rs:112-120 `Bitboard::contains`. -/
def contains (self : Bitboard) (square : Square) : Res Bool := do
  let index ← csub (← square.index) 1
  let overlap ←
    if index.toNat < 63 then do
      pure (self.w0 &&& (← cshl 1 index.toNat))
    else do
      let k ← csub index 63
      pure (self.w1 &&& (← cshl 1 k.toNat))
  return overlap != 0

/-- bitboard.rs:154-171 `Bitboard::pop` (new value of `self`, returned square); also
`Iterator::next` (361-363). -/
def pop (self : Bitboard) : Res (Bitboard × Option Square) := do
  let repr := self.to_u128
  if repr = 0 then
    return (self, none)
  else
    let pos := trailing_zeros repr
    let square ←
      if pos.toNat < 63 then do
        Square.from_u8_unchecked (← cadd (cast 8 pos) 1)
      else
        Square.from_u8_unchecked (cast 8 pos)
    debug_assert (self.contains square)
    let newrepr := repr &&& (repr - 1)
    return (from_u128_unchecked newrepr, some square)

/-- bitboard.rs:212-220 `Bitboard::from_file_unchecked`. -/
def from_file_unchecked (file : U8) (pattern : U16) : Res Bitboard := do
  if file.toNat ≤ 7 then
    let k ← cmul (← csub file 1) 9
    return ⟨← cshl (cast 64 pattern) k.toNat, 0⟩
  else
    let k ← cmul (← csub file 8) 9
    return ⟨0, ← cshl (cast 64 pattern) k.toNat⟩

/-- bitboard.rs:236-243 `Bitboard::get_file_unchecked`. -/
def get_file_unchecked (self : Bitboard) (file : U8) : Res U16 := do
  let pattern ←
    if file.toNat ≤ 7 then do
      let k ← cmul (← csub file 1) 9
      cshr self.w0 k.toNat
    else do
      let k ← cmul (← csub file 8) 9
      cshr self.w1 k.toNat
  return cast 16 pattern &&& 0x1ff

/-- bitboard.rs:286-294 `Bitboard::shift_down`. -/
def shift_down (self : Bitboard) (delta : U8) : Res Bitboard := do
  debug_assert (.ok (decide (delta.toNat ≤ 9)))
  let top : U64 := 0x8040201008040200#64
  let mask ← csub top (← cshr top (← csub 9 delta).toNat)
  let a ← cshl self.w0 delta.toNat
  let b ← cshl (cast 32 self.w1 : U32) delta.toNat
  return ⟨a &&& mask, cast 64 (b &&& cast 32 mask)⟩

/-- bitboard.rs:302-310 `Bitboard::shift_up`. -/
def shift_up (self : Bitboard) (delta : U8) : Res Bitboard := do
  debug_assert (.ok (decide (delta.toNat ≤ 9)))
  let bottom : U64 := 0x40201008040201#64
  let mask ← csub (← cshl bottom (← csub 9 delta).toNat) bottom
  let a ← cshr self.w0 delta.toNat
  let b ← cshr (cast 32 self.w1 : U32) delta.toNat
  return ⟨a &&& mask, cast 64 (b &&& cast 32 mask)⟩

/-- bitboard.rs:318-334 `Bitboard::shift_left`. -/
def shift_left (self : Bitboard) (delta : U8) : Res Bitboard := do
  debug_assert (.ok (decide (delta.toNat ≤ 9)))
  if delta.toNat ≤ 1 then
    let k ← cmul 9 delta
    let a ← cshl self.w0 k.toNat
    let b ← cshl self.w1 k.toNat
    let c ← cshr self.w0 (← csub 63 k).toNat
    return ⟨a &&& MASK0, (b ||| c) &&& MASK1⟩
  else if delta.toNat ≤ 7 then
    let k ← cmul 9 delta
    let a ← cshl self.w0 k.toNat
    let c ← cshr self.w0 (← csub 63 k).toNat
    return ⟨a &&& MASK0, c &&& MASK1⟩
  else
    let k ← cmul 9 delta
    let a ← cshl self.w0 (← csub k 63).toNat
    return ⟨0, a &&& MASK1⟩

/-- bitboard.rs:342-355 `Bitboard::shift_right`. -/
def shift_right (self : Bitboard) (delta : U8) : Res Bitboard := do
  debug_assert (.ok (decide (delta.toNat ≤ 9)))
  if delta.toNat ≤ 1 then
    let k ← cmul 9 delta
    let a ← cshr self.w0 k.toNat
    let b ← cshl self.w1 (← csub 63 k).toNat
    let c ← cshr self.w1 k.toNat
    return ⟨a ||| b, c⟩
  else if delta.toNat ≤ 7 then
    let k ← cmul 9 delta
    let a ← cshr self.w0 k.toNat
    let b ← cshl self.w1 (← csub 63 k).toNat
    return ⟨a ||| b, 0⟩
  else
    let k ← cmul 9 delta
    let a ← cshr self.w1 (← csub k 63).toNat
    return ⟨a, 0⟩

/-- The squares a `for` loop over a bitboard visits (bitboard.rs:358-368, `Iterator`):
repeated `pop` until `None`.  `fuel` bounds the number of calls; `none` = the loop did
not finish within the fuel. -/
def iterate : (fuel : Nat) → Bitboard → Res (Option (List Square))
  | 0, _ => .ok none
  | fuel + 1, b => do
    match ← b.pop with
    | (_, none) => return some []
    | (b', some s) =>
      match ← iterate fuel b' with
      | none => return none
      | some l => return some (s :: l)

omit [Profile] in
/-- bitboard.rs:365-367 `Iterator::size_hint`. -/
def size_hint (_ : Bitboard) : Nat × Option Nat := (0, some 81)

end Bitboard

namespace ByteSwappedBitboard

/-- bitboard.rs:538-541 `ByteSwappedBitboard::to_u128`. -/
def to_u128 (self : ByteSwappedBitboard) : U128 := (cast 128 self.w1) <<< 64 ||| cast 128 self.w0

/-- bitboard.rs:553-557 `ByteSwappedBitboard::from_u128_unchecked`. -/
def from_u128_unchecked (a : U128) : ByteSwappedBitboard := ⟨cast 64 a, cast 64 (a >>> 64)⟩

/-- bitboard.rs:563-565 `ByteSwappedBitboard::or`. -/
def or (self other : ByteSwappedBitboard) : ByteSwappedBitboard :=
  ⟨self.w0 ||| other.w0, self.w1 ||| other.w1⟩
/-- bitboard.rs:571-573 `ByteSwappedBitboard::and`. -/
def and (self other : ByteSwappedBitboard) : ByteSwappedBitboard :=
  ⟨self.w0 &&& other.w0, self.w1 &&& other.w1⟩
/-- bitboard.rs:579-581 `ByteSwappedBitboard::xor`. -/
def xor (self other : ByteSwappedBitboard) : ByteSwappedBitboard :=
  ⟨self.w0 ^^^ other.w0, self.w1 ^^^ other.w1⟩
/-- bitboard.rs:587-589 `ByteSwappedBitboard::andnot`. -/
def andnot (self other : ByteSwappedBitboard) : ByteSwappedBitboard :=
  ⟨~~~self.w0 &&& other.w0, ~~~self.w1 &&& other.w1⟩
/-- bitboard.rs:595-597 `ByteSwappedBitboard::swap_bytes`. -/
def swap_bytes (self : ByteSwappedBitboard) : Bitboard :=
  ⟨swap_bytes64 self.w1, swap_bytes64 self.w0⟩

end ByteSwappedBitboard
end ShogiCore
