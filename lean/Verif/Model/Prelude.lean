/-
Semantics of the Rust subset used by /repo: outcomes, build profile, integer types,
checked arithmetic, array access.  This file models the *language* (and the few `core`
intrinsics the crate calls), not the crate; every other file under Verif/Model models
code and cites it.
-/

namespace ShogiCore

/-- Rust `u8` (e.g. square.rs:11 `NonZeroU8`, hand.rs:12). -/
abbrev U8 := BitVec 8
/-- Rust `i8`, two's complement (square.rs:204-206). -/
abbrev I8 := BitVec 8
/-- Rust `u16` (e.g. position.rs:378 `ply`, mv.rs:178). -/
abbrev U16 := BitVec 16
/-- Rust `u32` (square.rs:77, bitboard.rs:292, 308). -/
abbrev U32 := BitVec 32
/-- Rust `i32`, two's complement (no_std.rs:13, 21). -/
abbrev I32 := BitVec 32
/-- Rust `u64` (bitboard.rs:12). -/
abbrev U64 := BitVec 64
/-- Rust `u128` (bitboard.rs:188, 202). -/
abbrev U128 := BitVec 128
/-- Width of a pointer, hence of `usize`, on the target.  (On a 16-bit target no_std.rs:66 does not
compile.) -/
inductive PtrWidth where
  | w32
  | w64
  deriving DecidableEq, Repr

/-- The width in bits (no_std.rs:66 `AtomicUsize`). -/
abbrev PtrWidth.bits : PtrWidth → Nat
  | .w32 => 32
  | .w64 => 64

/-- What a build fixes.  `debug = true`: overflow checks and debug assertions are on (cargo `dev`);
`debug = false`: both are off (cargo `release`).  (No profile in Cargo.toml:7-18 changes either.) -/
structure Build where
  debug : Bool
  ptr : PtrWidth
  deriving DecidableEq, Repr

/-- The build at hand (Cargo.toml:7-18).  Everything below is proved for an arbitrary one. -/
class Profile where
  build : Build

/-- Overflow checks and debug assertions (hand.rs:56, bitboard.rs:287) are on. -/
abbrev Profile.debug [P : Profile] : Bool := P.build.debug

/-- The width of `usize` in bits (no_std.rs:66). -/
abbrev Profile.bits [P : Profile] : Nat := P.build.ptr.bits

/-- Rust `usize` (no_std.rs:66, 83-88). -/
abbrev Usize [Profile] := BitVec Profile.bits

/-- There are four builds (Cargo.toml:7-18). -/
instance {p : Build → Prop} [DecidablePred p] : Decidable (∀ b, p b) :=
  decidable_of_iff (p ⟨false, .w32⟩ ∧ p ⟨true, .w32⟩ ∧ p ⟨false, .w64⟩ ∧ p ⟨true, .w64⟩)
    ⟨fun ⟨h1, h2, h3, h4⟩ b => by obtain ⟨d, w⟩ := b; cases d <;> cases w <;> assumption,
      fun h => ⟨h _, h _, h _, h _⟩⟩

/-- Outcome of running a Rust function: a value, a panic (e.g. position.rs:436, a checked index),
or undefined behaviour (e.g. square.rs:175 `unreachable_unchecked`). -/
inductive Res (α : Type u) where
  | ok (a : α)
  | panic
  | ub
  deriving DecidableEq, Repr

namespace Res

/-- Sequencing: a panic or UB ends the execution (no_std.rs:45-48, the panic handler
never returns). -/
def bind (x : Res α) (f : α → Res β) : Res β :=
  match x with
  | .ok a => f a
  | .panic => .panic
  | .ub => .ub

/-- Rust statements run in sequence (e.g. position.rs:315-319). -/
instance : Monad Res where
  pure := Res.ok
  bind := Res.bind

@[simp] theorem bind_ok (a : α) (f : α → Res β) : (Res.ok a >>= f) = f a := rfl
@[simp] theorem bind_panic (f : α → Res β) : ((Res.panic : Res α) >>= f) = .panic := rfl
@[simp] theorem bind_ub (f : α → Res β) : ((Res.ub : Res α) >>= f) = .ub := rfl
@[simp] theorem pure_eq (a : α) : (pure a : Res α) = .ok a := rfl
@[simp] theorem map_ok (f : α → β) (a : α) : (f <$> (Res.ok a)) = .ok (f a) := rfl

/-- The laws of sequencing (of the instance above, e.g. position.rs:315-319). -/
instance : LawfulMonad Res := LawfulMonad.mk'
  (id_map := by intro α x; cases x <;> rfl)
  (pure_bind := by intros; rfl)
  (bind_assoc := by intro α β γ x f g; cases x <;> rfl)

end Res

/-- `core::hint::unreachable_unchecked()` (color.rs:45, piece.rs:132, piece_kind.rs:224,
square.rs:175, 188, 223). -/
def unreachable_unchecked {α : Type u} : Res α := .ub

section
variable [Profile]

/-- `debug_assert!(cond)`: evaluated only when debug assertions are on (bitboard.rs:167, 287,
303, 319, 343; piece.rs:207, 214; piece_kind.rs:291, 297; square.rs:255). -/
def debug_assert (cond : Res Bool) : Res Unit :=
  if Profile.debug then do
    if (← cond) then .ok () else .panic
  else .ok ()

/-- Unsigned `a + b`: overflow panics when checks are on, wraps otherwise (e.g. square.rs:25). -/
def cadd {n : Nat} (a b : BitVec n) : Res (BitVec n) :=
  if Profile.debug && decide (2 ^ n ≤ a.toNat + b.toNat) then .panic else .ok (a + b)

/-- Unsigned `a - b` (e.g. square.rs:25, hand.rs:56). -/
def csub {n : Nat} (a b : BitVec n) : Res (BitVec n) :=
  if Profile.debug && decide (a.toNat < b.toNat) then .panic else .ok (a - b)

/-- Unsigned `a * b` (e.g. square.rs:25, common.rs:42). -/
def cmul {n : Nat} (a b : BitVec n) : Res (BitVec n) :=
  if Profile.debug && decide (2 ^ n ≤ a.toNat * b.toNat) then .panic else .ok (a * b)

/-- `a << k`: a shift amount of at least the width panics when checks are on and is
reduced modulo the width otherwise (e.g. bitboard.rs:56, 291, 322). -/
def cshl {n : Nat} (a : BitVec n) (k : Nat) : Res (BitVec n) :=
  if Profile.debug && decide (n ≤ k) then .panic else .ok (a <<< (k % n))

/-- `a >> k`, unsigned (e.g. bitboard.rs:133, 323). -/
def cshr {n : Nat} (a : BitVec n) (k : Nat) : Res (BitVec n) :=
  if Profile.debug && decide (n ≤ k) then .panic else .ok (a >>> (k % n))

/-- Signed `a + b` (square.rs:211). -/
def cadds {n : Nat} (a b : BitVec n) : Res (BitVec n) :=
  if Profile.debug && decide (a.toInt + b.toInt ≠ (a + b).toInt) then .panic else .ok (a + b)

/-- Signed `a - b` (no_std.rs:26). -/
def csubs {n : Nat} (a b : BitVec n) : Res (BitVec n) :=
  if Profile.debug && decide (a.toInt - b.toInt ≠ (a - b).toInt) then .panic else .ok (a - b)

/-- Signed `a * b` (square.rs:211). -/
def cmuls {n : Nat} (a b : BitVec n) : Res (BitVec n) :=
  if Profile.debug && decide (a.toInt * b.toInt ≠ (a * b).toInt) then .panic else .ok (a * b)

end

/-- `as` between unsigned integer types: truncation or zero extension (e.g. square.rs:77, mv.rs:199). -/
def cast {n : Nat} (m : Nat) (a : BitVec n) : BitVec m := a.setWidth m

/-- `NonZeroU8::new_unchecked` / `NonZeroU16::new_unchecked`: UB on zero (e.g. square.rs:25, 177,
piece.rs:44, mv.rs:189). -/
def nonzero_new_unchecked {n : Nat} (a : BitVec n) : Res (BitVec n) :=
  if a = 0#n then .ub else .ok a

/-- `array[i]`: out of bounds panics in both profiles (e.g. hand.rs:58, position.rs:457). -/
def idx {α : Type u} {n : Nat} (v : Vector α n) (i : Nat) : Res α :=
  if h : i < n then .ok v[i] else .panic

/-- `array[i] = x`: out of bounds panics (e.g. position.rs:436-437, 457-458). -/
def idxSet {α : Type u} {n : Nat} (v : Vector α n) (i : Nat) (x : α) : Res (Vector α n) :=
  if h : i < n then .ok (v.set i x h) else .panic

/-- `array.get_unchecked(i)`: out of bounds is UB (position.rs:463, 514, 575, 773; hand.rs:227). -/
def getUnchecked {α : Type u} {n : Nat} (v : Vector α n) (i : Nat) : Res α :=
  if h : i < n then .ok v[i] else .ub

/-- `*array.get_unchecked_mut(i) = x`: out of bounds is UB (position.rs:524, 586; piece.rs:164). -/
def setUnchecked {α : Type u} {n : Nat} (v : Vector α n) (i : Nat) (x : α) :
    Res (Vector α n) :=
  if h : i < n then .ok (v.set i x h) else .ub

/-- Subtraction of loop indices; an underflow is reported as a panic (with checks off the
wrapped index would be out of bounds anyway, so this only over-reports) (position.rs:773). -/
def nsub (a b : Nat) : Res Nat := if b ≤ a then .ok (a - b) else .panic

/-- Intrinsic `count_ones`: the number of set bits (bitboard.rs:81). -/
def count_ones {n : Nat} (a : BitVec n) : U32 :=
  BitVec.ofNat 32 ((List.range n).countP (fun i => a.getLsbD i))

/-- Intrinsic `trailing_zeros`: position of the lowest set bit, or the width if none
(bitboard.rs:159). -/
def trailing_zeros {n : Nat} (a : BitVec n) : U32 :=
  BitVec.ofNat 32 (((List.range n).find? (fun i => a.getLsbD i)).getD n)

/-- Intrinsic `reverse_bits` (bitboard.rs:135). -/
def reverse_bits {n : Nat} (a : BitVec n) : BitVec n := a.reverse

/-- Byte `i` (0 = least significant) of a word; for `swap_bytes` (bitboard.rs:277). -/
def byteOf {n : Nat} (a : BitVec n) (i : Nat) : U8 := a.extractLsb' (8 * i) 8

/-- Intrinsic `u64::swap_bytes`: reverses the order of the eight bytes (bitboard.rs:277, 596). -/
def swap_bytes64 (a : U64) : U64 :=
  byteOf a 0 ++ byteOf a 1 ++ byteOf a 2 ++ byteOf a 3 ++
  byteOf a 4 ++ byteOf a 5 ++ byteOf a 6 ++ byteOf a 7

/-- ASCII string literals as byte lists (`"..."` / `b"..."`, e.g. piece_kind.rs:374-379). -/
def ascii (s : String) : List U8 := s.toList.map (fun c => BitVec.ofNat 8 c.toNat)

/-- ASCII byte literals (`b'c'`, e.g. common.rs:6). -/
def asciiByte (c : Char) : U8 := BitVec.ofNat 8 c.toNat

end ShogiCore
