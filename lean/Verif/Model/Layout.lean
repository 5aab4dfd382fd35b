import Verif.Model.CApi
import Verif.Model.NoStd

/- Models how a `PartialPosition` lies in the memory of a C program: the data layout that
`#[repr(C)]` (position.rs:375, hand.rs:10, bitboard.rs:9) prescribes, and the exported functions
that get a pointer to one (include/shogi_core.h:741, 811, 820). -/

namespace ShogiCore

/-- What the layout depends on: the byte order, and whether `u64` has alignment 8 or 4 (the latter
on 32-bit x86 System V).  Models the platform, not the crate; needed for bitboard.rs:12. -/
class Target where
  bigEndian : Bool
  wideAlign : Bool

/-- Size and alignment of a type (of the fields in position.rs:376-385). -/
structure CTy where
  size : Nat
  align : Nat
  deriving DecidableEq, Repr

namespace CTy

/-- `u8`, `uint8_t`, `#[repr(u8)]` enums, `#[repr(transparent)]` structs over `u8`
(color.rs:7, square.rs:286, piece.rs:29). -/
def u8 : CTy := ⟨1, 1⟩
/-- `u16`, `uint16_t`, `#[repr(transparent)]` structs over `u16` (mv.rs:303). -/
def u16 : CTy := ⟨2, 2⟩
/-- `u64`, `uint64_t` (bitboard.rs:12). -/
def u64 [t : Target] : CTy := ⟨8, if t.wideAlign then 8 else 4⟩
/-- `[T; n]`, `T x[n]` (position.rs:379-385). -/
def array (n : Nat) (t : CTy) : CTy := ⟨n * t.size, t.align⟩

end CTy

/-- `n` rounded up to a multiple of `a` (part of `#[repr(C)]`, position.rs:375). -/
def roundUp (n a : Nat) : Nat := (n + (a - 1)) / a * a

/-- The layout algorithm of C and of `#[repr(C)]`: the offsets of the fields laid out from `n`
on, and where the last one ends (position.rs:375). -/
def fieldOffsets : Nat → List CTy → List Nat × Nat
  | n, [] => ([], n)
  | n, t :: ts =>
    let o := roundUp n t.align
    let r := fieldOffsets (o + t.size) ts
    (o :: r.1, r.2)

/-- The alignment of a struct with these fields (`#[repr(C)]`, position.rs:375). -/
def structAlign (ts : List CTy) : Nat := ts.foldr (fun t a => max t.align a) 1

/-- A struct with these fields (`#[repr(C)]`, position.rs:375, hand.rs:10, bitboard.rs:9). -/
def CTy.struct (ts : List CTy) : CTy := ⟨roundUp (fieldOffsets 0 ts).2 (structAlign ts), structAlign ts⟩

section
variable [Target]

/-- hand.rs:10-12 `struct Hand([u8; 8])`. -/
def Hand.ty : CTy := .struct [.array 8 .u8]
/-- bitboard.rs:9-12 `struct Bitboard([u64; 2])`. -/
def Bitboard.ty : CTy := .struct [.array 2 .u64]
/-- position.rs:375-385, the fields of `PartialPosition`. -/
def PartialPosition.fields : List CTy :=
  [.u8, .u16, .array 2 Hand.ty, .array 81 .u8, .array 2 Bitboard.ty, .array 14 Bitboard.ty, .u16,
    .array 2 .u8]
/-- position.rs:375-385 `PartialPosition`. -/
def PartialPosition.ty : CTy := .struct PartialPosition.fields

/-- include/shogi_core.h:414-416 `struct Hand`. -/
def headerHand : CTy := .struct [.array 8 .u8]
/-- include/shogi_core.h:311-313 `struct Bitboard`. -/
def headerBitboard : CTy := .struct [.array 2 .u64]
/-- include/shogi_core.h:455-464 `struct PartialPosition`, with the `typedef`s of lines 52, 345,
437, 445. -/
def headerFields : List CTy :=
  [.u8, .u16, .array 2 headerHand, .array 81 .u8, .array 2 headerBitboard,
    .array 14 headerBitboard, .u16, .array 2 .u8]

/-- Offset of field number `i` (position.rs:376-385). -/
def PartialPosition.off (i : Nat) : Nat := (fieldOffsets 0 PartialPosition.fields).1.getD i 0

/-! ### Bytes -/

/-- The `k` low bytes of `n`, lowest first (the integers of position.rs:376-385). -/
def leBytes : Nat → Nat → List U8
  | 0, _ => []
  | k + 1, n => BitVec.ofNat 8 n :: leBytes k (n / 256)

/-- The number with these bytes, lowest first (position.rs:376-385). -/
def ofLe : List U8 → Nat
  | [] => 0
  | b :: bs => b.toNat + 256 * ofLe bs

/-- An integer of `k` bytes in memory (position.rs:376-385). -/
def intBytes {w : Nat} (k : Nat) (x : BitVec w) : List U8 :=
  if Target.bigEndian then (leBytes k x.toNat).reverse else leBytes k x.toNat

/-- The integer with these bytes in memory (position.rs:376-385). -/
def intOf (w : Nat) (bs : List U8) : BitVec w :=
  BitVec.ofNat w (ofLe (if Target.bigEndian then bs.reverse else bs))

/-- An array in memory (position.rs:379-385). -/
def arrBytes {α : Type} {n : Nat} (f : α → List U8) (v : Vector α n) : List U8 := v.toList.flatMap f

/-- The array of `n` elements of `w` bytes each (position.rs:379-385). -/
def arrOf {α : Type} (n w : Nat) (f : List U8 → α) (bs : List U8) : Vector α n :=
  Vector.ofFn fun i => f ((bs.drop (i * w)).take w)

/-- bitboard.rs:9-12. -/
def Bitboard.bytes (b : Bitboard) : List U8 := intBytes 8 b.w0 ++ intBytes 8 b.w1
/-- bitboard.rs:9-12. -/
def Bitboard.ofBytes (bs : List U8) : Bitboard := ⟨intOf 64 (bs.take 8), intOf 64 (bs.drop 8)⟩
/-- hand.rs:10-12. -/
def Hand.bytes (h : Hand) : List U8 := h.cells.toList
/-- hand.rs:10-12. -/
def Hand.ofBytes (bs : List U8) : Hand := ⟨arrOf 8 1 (intOf 8) bs⟩

/-! ### Memory -/

/-- Consecutive byte reads (behind the pointers of position.rs:499-693). -/
def Mem.readBytes (m : Mem) (p : Nat) : Nat → Res (List U8)
  | 0 => .ok []
  | n + 1 => do
    let b ← m.read p
    return b :: (← Mem.readBytes m (p + 1) n)

/-- Consecutive byte writes (behind the pointers of position.rs:481-485, 761-765). -/
def Mem.writeBytes (m : Mem) (p : Nat) : List U8 → Res Mem
  | [] => .ok m
  | b :: bs => do (← m.write p b).writeBytes (p + 1) bs

open PartialPosition in
/-- The value behind a `&PartialPosition` (position.rs:375-385): undefined for a misaligned
pointer, for inaccessible memory, and for a `side` that is neither 1 nor 2.  Padding is not read.
Simplification: all fields are read, whichever the function needs. -/
def PartialPosition.load (m : Mem) (a : Nat) : Res PartialPosition := do
  if a % PartialPosition.ty.align ≠ 0 then .ub
  let side ← Color.transmute (intOf 8 (← m.readBytes (a + off 0) 1))
  let ply ← m.readBytes (a + off 1) 2
  let hands ← m.readBytes (a + off 2) (2 * 8)
  let board ← m.readBytes (a + off 3) 81
  let player_bb ← m.readBytes (a + off 4) (2 * 16)
  let piece_bb ← m.readBytes (a + off 5) (14 * 16)
  let last_move ← m.readBytes (a + off 6) 2
  let king_square ← m.readBytes (a + off 7) 2
  return {
    side
    ply := intOf 16 ply
    hands := arrOf 2 8 Hand.ofBytes hands
    board := arrOf 81 1 (fun b => ⟨intOf 8 b⟩) board
    player_bb := arrOf 2 16 Bitboard.ofBytes player_bb
    piece_bb := arrOf 14 16 Bitboard.ofBytes piece_bb
    last_move := ⟨intOf 16 last_move⟩
    king_square := arrOf 2 1 (fun b => ⟨intOf 8 b⟩) king_square }

open PartialPosition in
/-- Writing a value behind a `&mut PartialPosition` (position.rs:762, the fields of lines 376-385): the fields are written, padding is left as it
is (the language leaves the contents of padding open). -/
def PartialPosition.store (m : Mem) (a : Nat) (p : PartialPosition) : Res Mem := do
  if a % PartialPosition.ty.align ≠ 0 then .ub
  let m ← m.writeBytes (a + off 0) (intBytes 1 p.side.toU8)
  let m ← m.writeBytes (a + off 1) (intBytes 2 p.ply)
  let m ← m.writeBytes (a + off 2) (arrBytes Hand.bytes p.hands)
  let m ← m.writeBytes (a + off 3) (arrBytes (fun x => intBytes 1 x.val) p.board)
  let m ← m.writeBytes (a + off 4) (arrBytes Bitboard.bytes p.player_bb)
  let m ← m.writeBytes (a + off 5) (arrBytes Bitboard.bytes p.piece_bb)
  let m ← m.writeBytes (a + off 6) (intBytes 2 p.last_move.val)
  m.writeBytes (a + off 7) (arrBytes (fun x => intBytes 1 x.val) p.king_square)

/-! ### Exported functions -/

variable [Profile]

/-- position.rs:481-485 `PartialPosition_startpos(buf)`. -/
def startpos_ptr (m : Mem) (buf : Nat) : Res Mem := do
  PartialPosition.store m buf (← PartialPosition.startpos)

/-- position.rs:761-765 `PartialPosition_make_compact_move(self, mv)`. -/
def make_compact_move_ptr (m : Mem) (self : Nat) (mv : CompactMove) : Res (Mem × Bool) := do
  let p ← PartialPosition.load m self
  let (p, b) ← p.make_compact_move mv
  return (← PartialPosition.store m self p, b)

omit [Profile] in
/-- The exported functions with a `const struct PartialPosition *self` (position.rs:499-693):
`f` is the Rust function. -/
def query_ptr {α : Type} (f : PartialPosition → Res α) (m : Mem) (self : Nat) : Res α := do
  f (← PartialPosition.load m self)

/-- position.rs:830-853 `PartialPosition_to_sfen_c(self, ptr)`. -/
def to_sfen_c_ptr (m : Mem) (self ptr : Nat) : Res Mem := do
  (← PartialPosition.load m self).to_sfen_c m ptr

omit [Profile] in
/-- The C assignment `*dst = *src`: a copy of all bytes, by no_std.rs:4-10. -/
def assign_ptr (m : Mem) (dst src : Nat) : Res Mem := do
  let (m, _) ← memcpy m dst src PartialPosition.ty.size
  return m

end
end ShogiCore
