import Verif.Model.Bitboard
import Verif.Model.BuildConsts
import Verif.Model.GameResolution
import Verif.Model.Hand
import Verif.Model.Mem
import Verif.Model.Move

/- Models shogi_core/src/position.rs. -/

namespace ShogiCore

/-- position.rs:376-385 `struct PartialPosition`. -/
structure PartialPosition where
  side : Color
  ply : U16
  hands : Vector Hand 2
  board : Vector OptionPiece 81
  player_bb : Vector Bitboard 2
  piece_bb : Vector Bitboard 14
  last_move : OptionCompactMove
  king_square : Vector OptionSquare 2
  deriving DecidableEq, Repr

namespace PartialPosition

/-- position.rs:389-400 `PartialPosition::empty`. -/
def empty : PartialPosition where
  side := .Black
  ply := 1
  hands := Vector.replicate 2 Hand.new
  board := Vector.replicate 81 (OptionPiece.ofOption none)
  player_bb := Vector.replicate 2 Bitboard.empty
  piece_bb := Vector.replicate 14 Bitboard.empty
  last_move := OptionCompactMove.ofOption none
  king_square := Vector.replicate 2 (OptionSquare.ofOption none)

/-- position.rs:499-501 `side_to_move`. -/
def side_to_move (self : PartialPosition) : Color := self.side

/-- position.rs:505-507 `side_to_move_set` (new value of `self`). -/
def side_to_move_set (self : PartialPosition) (side : Color) : PartialPosition :=
  { self with side := side }

/-- position.rs:538-540 `ply`. -/
def get_ply (self : PartialPosition) : U16 := self.ply

/-- position.rs:545-551 `ply_set` (new value of `self`, success). -/
def ply_set (self : PartialPosition) (ply : U16) : PartialPosition × Bool :=
  if ply = 0 then (self, false) else ({ self with ply := ply }, true)

/-- position.rs:618-620 `occupied_bitboard`. -/
def occupied_bitboard (self : PartialPosition) : Bitboard :=
  self.player_bb[0].bitor self.player_bb[1]

/-- position.rs:625-627 `vacant_bitboard`. -/
def vacant_bitboard (self : PartialPosition) : Bitboard := self.occupied_bitboard.not

/-- position.rs:687-689 `last_compact_move`. -/
def last_compact_move (self : PartialPosition) : Option CompactMove := self.last_move.toOption

/-- position.rs:693-695 `PartialPosition_last_compact_move`. -/
def PartialPosition_last_compact_move (self : PartialPosition) : OptionCompactMove :=
  self.last_move

variable [Profile]

/-- position.rs:405-410 / 419-424, the `while` loop of the two constants for the given
file pattern, over the remaining values of `i`. -/
def startpos_bb_loop (pattern : U16) : List Nat → Bitboard → Res Bitboard
  | [], result => .ok result
  | i :: rest, result => do
    let f ← cadd (BitVec.ofNat 8 i) 1
    let file ← Bitboard.from_file_unchecked f pattern
    startpos_bb_loop pattern rest (result.or file)

/-- position.rs:402-414 `STARTPOS_BLACK_BB`. -/
def STARTPOS_BLACK_BB : Res Bitboard := do
  let result ← startpos_bb_loop ((1 : U16) <<< 8 ||| (1 : U16) <<< 6) (List.range 9) Bitboard.empty
  let result := result.or (← Bitboard.single (← Square.const "SQ_2H"))
  return result.or (← Bitboard.single (← Square.const "SQ_8H"))

/-- position.rs:416-428 `STARTPOS_WHITE_BB`. -/
def STARTPOS_WHITE_BB : Res Bitboard := do
  let result ← startpos_bb_loop ((1 : U16) <<< 2 ||| 1) (List.range 9) Bitboard.empty
  let result := result.or (← Bitboard.single (← Square.const "SQ_2B"))
  return result.or (← Bitboard.single (← Square.const "SQ_8B"))

/-- position.rs:435-438, the pawn loop of `startpos` over the remaining `i`. -/
def startpos_pawns : List Nat → Vector OptionPiece 81 → Res (Vector OptionPiece 81)
  | [], board => .ok board
  | i :: rest, board => do
    let board ← idxSet board (6 + i * 9) (.ofOption (some (← Piece.const "B_P")))
    let board ← idxSet board (2 + i * 9) (.ofOption (some (← Piece.const "W_P")))
    startpos_pawns rest board

/-- position.rs:445-455 `order`. -/
def startpos_order : Vector PieceKind 9 :=
  #v[.Lance, .Knight, .Silver, .Gold, .King, .Gold, .Silver, .Knight, .Lance]

/-- position.rs:456-459, the back-rank loop of `startpos` over the remaining `i`. -/
def startpos_back : List Nat → Vector OptionPiece 81 → Res (Vector OptionPiece 81)
  | [], board => .ok board
  | i :: rest, board => do
    let board ← idxSet board (8 + 9 * i)
      (.ofOption (some (← Piece.new (← idx startpos_order i) .Black)))
    let board ← idxSet board (9 * i)
      (.ofOption (some (← Piece.new (← idx startpos_order i) .White)))
    startpos_back rest board

/-- position.rs:461-468, the loop filling `piece_bb` from `board` over the remaining
squares. -/
def startpos_piece_bb (board : Vector OptionPiece 81) :
    List Square → Vector Bitboard 14 → Res (Vector Bitboard 14)
  | [], piece_bb => .ok piece_bb
  | square :: rest, piece_bb => do
    let cell ← getUnchecked board (← square.array_index).toNat
    match cell.toOption with
    | none => startpos_piece_bb board rest piece_bb
    | some piece =>
      let i := (← (← piece.piece_kind).array_index).toNat
      let bb ← (← idx piece_bb i).bitor_assign_sq square
      startpos_piece_bb board rest (← idxSet piece_bb i bb)

/-- position.rs:431-479 `PartialPosition::startpos` (also `Default`, 859-863). -/
def startpos : Res PartialPosition := do
  let board := Vector.replicate 81 (OptionPiece.ofOption none)
  let board ← startpos_pawns (List.range 9) board
  let board ← idxSet board 70 (.ofOption (some (← Piece.const "B_B")))
  let board ← idxSet board 10 (.ofOption (some (← Piece.const "W_B")))
  let board ← idxSet board 16 (.ofOption (some (← Piece.const "B_R")))
  let board ← idxSet board 64 (.ofOption (some (← Piece.const "W_R")))
  let board ← startpos_back (List.range 9) board
  let piece_bb ← startpos_piece_bb board (← Square.all) (Vector.replicate 14 Bitboard.empty)
  return {
    side := .Black
    ply := 1
    hands := Vector.replicate 2 Hand.new
    board := board
    player_bb := #v[← STARTPOS_BLACK_BB, ← STARTPOS_WHITE_BB]
    piece_bb := piece_bb
    last_move := OptionCompactMove.ofOption none
    king_square := #v[.ofOption (some (← Square.const "SQ_5I")),
                      .ofOption (some (← Square.const "SQ_5A"))] }

/-- position.rs:512-515 `hand_of_a_player`. -/
def hand_of_a_player (self : PartialPosition) (color : Color) : Res Hand := do
  let i ← csub color.toU8 1
  getUnchecked self.hands i.toNat

/-- position.rs:522-525 `hand_of_a_player_mut`: assigning through the returned reference
(new value of `self`).  Reading through it is `hand_of_a_player`. -/
def hand_of_a_player_mut_assign (self : PartialPosition) (color : Color) (hand : Hand) :
    Res PartialPosition := do
  let i ← csub color.toU8 1
  let hands ← setUnchecked self.hands i.toNat hand
  return { self with hands := hands }

/-- position.rs:530-533 `hand`. -/
def hand (self : PartialPosition) (piece : Piece) : Res (Option U8) := do
  let hand ← self.hand_of_a_player (← piece.color)
  hand.count (← piece.piece_kind)

/-- position.rs:572-576 `PartialPosition_piece_at`. -/
def PartialPosition_piece_at (self : PartialPosition) (square : Square) : Res OptionPiece := do
  let index ← csub (← square.index) 1
  getUnchecked self.board index.toNat

/-- position.rs:565-567 `piece_at`. -/
def piece_at (self : PartialPosition) (square : Square) : Res (Option Piece) := do
  return (← self.PartialPosition_piece_at square).toOption

/-- position.rs:590-595, the second step of `piece_set` on `player_bb`. -/
def piece_set_player (self : PartialPosition) (single : Bitboard) (piece : Option Piece) :
    Res PartialPosition :=
  match piece with
  | none => .ok self
  | some p => do
    match ← p.to_parts with
    | (_, .Black) =>
      return { self with player_bb := self.player_bb.set 0 (self.player_bb[0].bitor_assign single) }
    | (_, .White) =>
      return { self with player_bb := self.player_bb.set 1 (self.player_bb[1].bitor_assign single) }

/-- position.rs:596-600, the removal step of `piece_set` on `piece_bb`. -/
def piece_set_remove (self : PartialPosition) (single : Bitboard) (old : Option Piece) :
    Res PartialPosition :=
  match old with
  | none => .ok self
  | some p => do
    let i := (← (← p.piece_kind).array_index).toNat
    let piece_bb ← idxSet self.piece_bb i (single.andnot (← idx self.piece_bb i))
    return { self with piece_bb := piece_bb }

/-- position.rs:601-610, the insertion step of `piece_set` on `piece_bb` and
`king_square`. -/
def piece_set_insert (self : PartialPosition) (square : Square) (single : Bitboard)
    (piece : Option Piece) : Res PartialPosition :=
  match piece with
  | none => .ok self
  | some p => do
    let i := (← (← p.piece_kind).array_index).toNat
    let piece_bb ← idxSet self.piece_bb i ((← idx self.piece_bb i).bitor_assign single)
    let self := { self with piece_bb := piece_bb }
    let self := if p = (← Piece.const "B_K") then
        { self with king_square := self.king_square.set 0 (.ofOption (some square)) }
      else self
    let self := if p = (← Piece.const "W_K") then
        { self with king_square := self.king_square.set 1 (.ofOption (some square)) }
      else self
    return self

/-- position.rs:582-611 `piece_set` (new value of `self`). -/
def piece_set (self : PartialPosition) (square : Square) (piece : Option Piece) :
    Res PartialPosition := do
  let index ← csub (← square.index) 1
  let old ← self.piece_at square
  let board ← setUnchecked self.board index.toNat (OptionPiece.ofOption piece)
  let self := { self with board := board }
  let single ← Bitboard.single_inlined square
  let self := { self with player_bb := self.player_bb.set 0 (single.andnot self.player_bb[0]) }
  let self := { self with player_bb := self.player_bb.set 1 (single.andnot self.player_bb[1]) }
  let self ← self.piece_set_player single piece
  let self ← self.piece_set_remove single old
  self.piece_set_insert square single piece

/-- position.rs:632-634 `player_bitboard`. -/
def player_bitboard (self : PartialPosition) (color : Color) : Res Bitboard := do
  idx self.player_bb (← color.array_index).toNat

/-- position.rs:649-652 `piece_bitboard`. -/
def piece_bitboard (self : PartialPosition) (piece : Piece) : Res Bitboard := do
  let (piece_kind, color) ← piece.to_parts
  let a ← idx self.piece_bb (← piece_kind.array_index).toNat
  let b ← idx self.player_bb (← color.array_index).toNat
  return a.bitand b

/-- position.rs:665-667 `piece_kind_bitboard`. -/
def piece_kind_bitboard (self : PartialPosition) (piece_kind : PieceKind) : Res Bitboard := do
  idx self.piece_bb (← piece_kind.array_index).toNat

/-- position.rs:676-678 `last_move`. -/
def get_last_move (self : PartialPosition) : Res (Option Move) :=
  match self.last_compact_move with
  | none => .ok none
  | some mv => do return some (← mv.toMove)

/-- position.rs:698-700 `king_position`. -/
def king_position (self : PartialPosition) (color : Color) : Res (Option Square) := do
  return (← idx self.king_square (← color.array_index).toNat).toOption

/-- position.rs:717-729, the capture step of `make_move` for a normal move (new value of
`self`; `none` = `make_move` returns `None` here). -/
def make_move_capture (self : PartialPosition) (piece : Piece) (to : Square) :
    Res (PartialPosition × Option Unit) := do
  match ← self.piece_at to with
  | none => return (self, some ())
  | some enemy =>
    if (← piece.color) = (← enemy.color) then return (self, none)
    else
      let hand ← self.hand_of_a_player (← piece.color)
      let obtaining ← enemy.piece_kind
      let unpromoted := match obtaining.unpromote with
        | some piece_kind => piece_kind
        | none => obtaining
      match ← hand.added unpromoted with
      | none => return (self, none)
      | some hand' =>
        let self ← self.hand_of_a_player_mut_assign (← piece.color) hand'
        return (self, some ())

/-- position.rs:748-751, the common tail of `make_move`. -/
def make_move_finish (self : PartialPosition) (mv : Move) :
    Res (PartialPosition × Option Unit) := do
  let self := { self with last_move := OptionCompactMove.ofOption (some (← CompactMove.ofMove mv)) }
  let self := { self with side := ← self.side.flip }
  let self := { self with ply := self.ply + 1 }         -- wrapping_add
  return (self, some ())

/-- position.rs:708-752 `make_move` (new value of `self`, returned verdict). -/
def make_move (self : PartialPosition) (mv : Move) : Res (PartialPosition × Option Unit) :=
  let color := self.side
  match mv with
  | .Normal src to promote => do
    match ← self.piece_at src with
    | none => return (self, none)
    | some piece =>
      if (← piece.color) ≠ color then return (self, none)
      else
        match ← (if promote then piece.promote else .ok (some piece)) with
        | none => return (self, none)
        | some target_piece =>
          match ← self.make_move_capture piece to with
          | (self, none) => return (self, none)
          | (self, some ()) =>
            let self ← self.piece_set src none
            let self ← self.piece_set to (some target_piece)
            self.make_move_finish mv
  | .Drop piece to => do
    if (← piece.color) ≠ color then return (self, none)
    else if (← piece.unpromote).isSome then return (self, none)
    else if (← self.piece_at to).isSome then return (self, none)
    else
      let hand ← self.hand_of_a_player (← piece.color)
      match ← hand.removed (← piece.piece_kind) with
      | none => return (self, none)
      | some hand' =>
        let self ← self.hand_of_a_player_mut_assign (← piece.color) hand'
        let self ← self.piece_set to (some piece)
        self.make_move_finish mv

/-- position.rs:762-765 `make_compact_move`. -/
def make_compact_move (self : PartialPosition) (mv : CompactMove) :
    Res (PartialPosition × Bool) := do
  let mv ← mv.toMove
  let (self, r) ← self.make_move mv
  return (self, r.isSome)

section
variable {W : Type} [Write W]

/-- position.rs:771-784, the inner loop of `to_sfen` for rank index `i` over the remaining
`j`; returns the final `vacant`. -/
def to_sfen_row (self : PartialPosition) (i : Nat) : List Nat → U8 → FmtM W U8
  | [], vacant => pure vacant
  | j :: rest, vacant => do
    let k ← FmtM.lift (nsub 8 j)
    let current ← FmtM.lift (getUnchecked self.board (9 * k + i))
    match current.toOption with
    | some occupying =>
      if 0 < vacant.toNat then
        write_u8 vacant
        occupying.to_usi
        to_sfen_row self i rest 0
      else
        occupying.to_usi
        to_sfen_row self i rest vacant
    | none =>
      let vacant ← FmtM.lift (cadd vacant 1)
      to_sfen_row self i rest vacant

/-- position.rs:769-792, the outer loop of `to_sfen` over the remaining `i`. -/
def to_sfen_board (self : PartialPosition) : List Nat → FmtM W Unit
  | [] => pure ()
  | i :: rest => do
    let vacant ← to_sfen_row self i (List.range 9) 0
    if 0 < vacant.toNat then
      write_u8 vacant
    if i < 8 then
      write_ascii_byte (asciiByte '/')
    to_sfen_board self rest

/-- position.rs:768-803 `to_sfen`. -/
def to_sfen (self : PartialPosition) : FmtM W Unit := do
  to_sfen_board self (List.range 9)
  write_ascii_byte (asciiByte ' ')
  self.side.to_usi
  write_ascii_byte (asciiByte ' ')
  Hand.to_usi2 self.hands
  write_ascii_byte (asciiByte ' ')
  write_u16 self.ply

end

/-- position.rs:819-823 `to_sfen_owned`. -/
def to_sfen_owned (self : PartialPosition) : Res (List U8) := do
  let (s, _) ← (self.to_sfen : FmtM (List U8) Unit) []
  return s

end PartialPosition

/-- position.rs:832 `struct Bridge(*mut u8)`, together with the memory it points into. -/
structure Bridge where
  mem : Mem
  ptr : Nat

/-- position.rs:839-841, the byte-writing loop of `Bridge::write_str`. -/
def Bridge.writeBytes (ptr : Nat) : Nat → List U8 → Mem → Res Mem
  | _, [], m => .ok m
  | i, b :: rest, m => do
    let m ← m.write (ptr + i) b
    Bridge.writeBytes ptr (i + 1) rest m

/-- position.rs:833-848 `Write for Bridge`. -/
instance : Write Bridge where
  write_str w s := do
    let mem ← Bridge.writeBytes w.ptr 0 s w.mem
    return (⟨mem, w.ptr + s.length⟩, true)

/-- position.rs:831-853 `to_sfen_c`: the memory after the call. -/
def PartialPosition.to_sfen_c [Profile] (self : PartialPosition) (mem : Mem) (ptr : Nat) :
    Res Mem := do
  let (sink, _) ← (self.to_sfen : FmtM Bridge Unit) ⟨mem, ptr⟩
  let (sink, _) ← (write_ascii_byte 0 : FmtM Bridge Unit) sink
  return sink.mem

/-- position.rs:58-61 `struct PartialGame`. -/
structure PartialGame where
  inner : PartialPosition
  resolution : OptionGameResolution
  deriving DecidableEq, Repr

namespace PartialGame

/-- position.rs:57 derived `Default for PartialGame`. -/
def default [Profile] : Res PartialGame := do
  return ⟨← PartialPosition.startpos, OptionGameResolution.default⟩

/-- position.rs:67-69 `position`. -/
def position (self : PartialGame) : PartialPosition := self.inner
/-- position.rs:73-75 `resolve` (new value of `self`). -/
def resolve (self : PartialGame) (resolution : GameResolution) : PartialGame :=
  { self with resolution := .ofOption (some resolution) }
/-- position.rs:79-81 `unresolve` (new value of `self`). -/
def unresolve (self : PartialGame) : PartialGame := { self with resolution := .ofOption none }
/-- position.rs:84-86 `resolution`. -/
def get_resolution (self : PartialGame) : Res (Option GameResolution) := self.resolution.toOption
/-- position.rs:89-91 `PartialGame_resolution`. -/
def PartialGame_resolution (self : PartialGame) : OptionGameResolution := self.resolution

end PartialGame

/-- position.rs:101-105 `struct Position`. -/
structure Position where
  initial : PartialPosition
  inner : PartialPosition
  moves : List Move
  deriving DecidableEq, Repr

namespace Position

/-- position.rs:112-114 `inner`. -/
def get_inner (self : Position) : PartialPosition := self.inner
/-- position.rs:119-121 `initial_position`. -/
def initial_position (self : Position) : PartialPosition := self.initial
/-- position.rs:144-150 `arbitrary_position`. -/
def arbitrary_position (p : PartialPosition) : Position := ⟨p, p, []⟩
/-- position.rs:163-165 `side_to_move`. -/
def side_to_move (self : Position) : Color := self.inner.side_to_move
/-- position.rs:194-196 `ply`. -/
def ply (self : Position) : U16 := self.inner.get_ply
/-- position.rs:236-238 `occupied_bitboard`. -/
def occupied_bitboard (self : Position) : Bitboard := self.inner.occupied_bitboard
/-- position.rs:242-244 `vacant_bitboard`. -/
def vacant_bitboard (self : Position) : Bitboard := self.inner.vacant_bitboard
/-- position.rs:286-288 `last_compact_move`. -/
def last_compact_move (self : Position) : Option CompactMove := self.inner.last_compact_move
/-- position.rs:298-300 `moves`. -/
def get_moves (self : Position) : List Move := self.moves
/-- position.rs:304-306 `Position_last_compact_move`. -/
def Position_last_compact_move (self : Position) : OptionCompactMove :=
  self.inner.PartialPosition_last_compact_move

variable [Profile]

/-- position.rs:124-126 `startpos`; also the derived `Default` (100) up to the two copies
of the default `PartialPosition` being computed separately. -/
def startpos : Res Position := do return arbitrary_position (← PartialPosition.startpos)
/-- position.rs:100 derived `Default`: field-wise defaults. -/
def default : Res Position := do
  return ⟨← PartialPosition.startpos, ← PartialPosition.startpos, []⟩
/-- position.rs:169-171 `hand_of_a_player`. -/
def hand_of_a_player (self : Position) (color : Color) : Res Hand :=
  self.inner.hand_of_a_player color
/-- position.rs:181-183 `hand_of_a_player_mut` (deprecated), assigning. -/
def hand_of_a_player_mut_assign (self : Position) (color : Color) (hand : Hand) :
    Res Position := do
  return { self with inner := ← self.inner.hand_of_a_player_mut_assign color hand }
/-- position.rs:188-190 `hand`. -/
def hand (self : Position) (piece : Piece) : Res (Option U8) := self.inner.hand piece
/-- position.rs:209-211 `piece_at`. -/
def piece_at (self : Position) (square : Square) : Res (Option Piece) := self.inner.piece_at square
/-- position.rs:215-217 `Position_piece_at`. -/
def Position_piece_at (self : Position) (square : Square) : Res OptionPiece :=
  self.inner.PartialPosition_piece_at square
/-- position.rs:227-229 `piece_set` (deprecated). -/
def piece_set (self : Position) (square : Square) (piece : Option Piece) : Res Position := do
  return { self with inner := ← self.inner.piece_set square piece }
/-- position.rs:248-250 `player_bitboard`. -/
def player_bitboard (self : Position) (color : Color) : Res Bitboard :=
  self.inner.player_bitboard color
/-- position.rs:264-266 `piece_bitboard`. -/
def piece_bitboard (self : Position) (piece : Piece) : Res Bitboard :=
  self.inner.piece_bitboard piece
/-- position.rs:275-277 `last_move`. -/
def last_move (self : Position) : Res (Option Move) := self.inner.get_last_move

/-- position.rs:315-319 `make_move` (new value of `self`, returned verdict). -/
def make_move (self : Position) (mv : Move) : Res (Position × Option Unit) := do
  let (inner, r) ← self.inner.make_move mv
  let self := { self with inner := inner }
  match r with
  | none => return (self, none)
  | some () => return ({ self with moves := self.moves ++ [mv] }, some ())

/-- position.rs:329-332 `make_compact_move`. -/
def make_compact_move (self : Position) (mv : CompactMove) : Res (Position × Bool) := do
  let mv ← mv.toMove
  let (self, r) ← self.make_move mv
  return (self, r.isSome)

/-- position.rs:348-350 `to_sfen_owned`. -/
def to_sfen_owned (self : Position) : Res (List U8) := self.inner.to_sfen_owned

/-- position.rs:358-360 `to_sfen_c`. -/
def to_sfen_c (self : Position) (mem : Mem) (ptr : Nat) : Res Mem := self.inner.to_sfen_c mem ptr

end Position

/-- position.rs:14-17 `struct Game`. -/
structure Game where
  inner : Position
  resolution : OptionGameResolution
  deriving DecidableEq, Repr

namespace Game

/-- position.rs:13 derived `Default for Game`. -/
def default [Profile] : Res Game := do
  return ⟨← Position.default, OptionGameResolution.default⟩

/-- position.rs:24-26 `position`. -/
def position (self : Game) : Position := self.inner
/-- position.rs:30-32 `resolve` (new value of `self`). -/
def resolve (self : Game) (resolution : GameResolution) : Game :=
  { self with resolution := .ofOption (some resolution) }
/-- position.rs:36-38 `unresolve` (new value of `self`). -/
def unresolve (self : Game) : Game := { self with resolution := .ofOption none }
/-- position.rs:41-43 `resolution`. -/
def get_resolution (self : Game) : Res (Option GameResolution) := self.resolution.toOption
/-- position.rs:46-48 `Game_resolution`. -/
def Game_resolution (self : Game) : OptionGameResolution := self.resolution

end Game
end ShogiCore
