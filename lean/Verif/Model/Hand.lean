import Verif.Model.PieceKind

/- Models shogi_core/src/hand.rs. -/

namespace ShogiCore

/-- hand.rs:12 `struct Hand([u8; 8])`. -/
structure Hand where
  cells : Vector U8 8
  deriving DecidableEq, Repr

namespace Hand

/-- hand.rs:24-26 `Hand::new` (`Default`: all eight bytes zero). -/
def new : Hand := ⟨Vector.replicate 8 0⟩

variable [Profile]

/-- hand.rs:55-62 `Hand::added`. -/
def added (self : Hand) (piece_kind : PieceKind) : Res (Option Hand) := do
  let i ← csub piece_kind.toU8 1
  let index := (cast Profile.bits i : Usize).toNat
  if index < 7 then
    let c ← idx self.cells index
    let cells ← idxSet self.cells index (c + 1)      -- wrapping_add
    return some ⟨cells⟩
  else return none

/-- hand.rs:85-92 `Hand::removed`. -/
def removed (self : Hand) (piece_kind : PieceKind) : Res (Option Hand) := do
  let i ← csub piece_kind.toU8 1
  let index := (cast Profile.bits i : Usize).toNat
  if index < 7 then
    let c ← idx self.cells index
    if c.toNat < 1 then return none                   -- checked_sub(1)? is None
    else
      let cells ← idxSet self.cells index (c - 1)
      return some ⟨cells⟩
  else return none

/-- hand.rs:95-101 `Hand::count`. -/
def count (self : Hand) (piece_kind : PieceKind) : Res (Option U8) := do
  let i ← csub piece_kind.toU8 1
  let index := (cast Profile.bits i : Usize).toNat
  if index < 7 then return some (← idx self.cells index)
  else return none

/-- hand.rs:107-114 `Hand_add` (`&mut self` returned first). -/
def Hand_add (self : Hand) (piece_kind : PieceKind) : Res (Hand × Bool) := do
  match ← self.added piece_kind with
  | some new => return (new, true)
  | none => return (self, false)

/-- hand.rs:120-127 `Hand_remove`. -/
def Hand_remove (self : Hand) (piece_kind : PieceKind) : Res (Hand × Bool) := do
  match ← self.removed piece_kind with
  | some new => return (new, true)
  | none => return (self, false)

/-- hand.rs:133-135 `Hand_count`. -/
def Hand_count (self : Hand) (piece_kind : PieceKind) : Res U8 := do
  match ← self.count piece_kind with
  | some n => return n
  | none => return 0

omit [Profile] in
/-- hand.rs:138-141 `Hand::as_u64` (transmute of the byte array; little endian). -/
def as_u64 (self : Hand) : U64 :=
  self.cells[7] ++ self.cells[6] ++ self.cells[5] ++ self.cells[4] ++
  self.cells[3] ++ self.cells[2] ++ self.cells[1] ++ self.cells[0]

omit [Profile] in
/-- hand.rs:193-195 `PartialEq for Hand`. -/
def eq (self other : Hand) : Bool := self.as_u64 == other.as_u64

omit [Profile] in
/-- hand.rs:153-158 `Hand::is_hand_piece` (and `Hand_is_hand_piece`, 161-163). -/
def is_hand_piece (piece_kind : PieceKind) : Bool := decide (piece_kind.toU8.toNat < 8)

omit [Profile] in
/-- hand.rs:175-178 `Hand::all_hand_pieces`: the items yielded, in order. -/
def all_hand_pieces : Res (List PieceKind) :=
  (List.range' 1 7).mapM (fun repr => PieceKind.from_u8_unchecked (BitVec.ofNat 8 repr))

omit [Profile] in
/-- hand.rs:188 `Hand::NUM_HAND_PIECES`. -/
def NUM_HAND_PIECES : Nat := 7

/-- hand.rs:225-236, the inner loop of `ToUsi for [Hand; 2]` over the remaining `j`,
for the hand `self[i]` with symbols `pieces[i]`. -/
def usi_loop {W : Type} [Write W] (h : Hand) (symbols : List U8) : List Nat → FmtM W Unit
  | [] => pure ()
  | j :: rest => do
    let count ← FmtM.lift (getUnchecked h.cells j)
    if 0 < count.toNat then
      if 2 ≤ count.toNat then
        write_u8 count
      write_ascii_byte (← FmtM.lift (PieceKind.byteUnchecked symbols j))
    usi_loop h symbols rest

/-- hand.rs:218-240 `ToUsi for [Hand; 2]`. -/
def to_usi2 {W : Type} [Write W] (self : Vector Hand 2) : FmtM W Unit := do
  if self[0].eq Hand.new && self[1].eq Hand.new then
    write_str (ascii "-")
  else
    usi_loop self[0] (ascii "PLNSGBR") (List.range 7).reverse
    usi_loop self[1] (ascii "plnsgbr") (List.range 7).reverse

end Hand
end ShogiCore
