import Verif.Model.Derive

/- Models the derived `Debug` impls (`#[derive(.., Debug, ..)]`) of every exported type, and the
parts of `core::fmt` they use: `DebugTuple`, `DebugStruct`, `DebugList`, `PadAdapter`, the
decimal and hexadecimal formatting of integers, and `pad_integral` and `pad` with all options that a
format string can set.  (`OptionPieceKind` has no `Debug`, piece_kind.rs:317-318.) -/

namespace ShogiCore

/-! ### `core::fmt` -/

/-- Decimal formatting of an unsigned integer as in `core`: digits are produced from the last
to the first (square.rs:10 and every other integer field). -/
def fmtNat (n : Nat) (buf : List U8 := []) : List U8 :=
  if n < 10 then BitVec.ofNat 8 (48 + n) :: buf
  else fmtNat (n / 10) (BitVec.ofNat 8 (48 + n % 10) :: buf)

/-- One hexadecimal digit, as `core` writes it for `{:x}` and `{:X}` (square.rs:10 under `{:x?}`). -/
def hexByte (upper : Bool) (d : Nat) : U8 :=
  if d < 10 then BitVec.ofNat 8 (48 + d) else BitVec.ofNat 8 ((if upper then 65 else 97) + (d - 10))

/-- Hexadecimal formatting, again from the last digit to the first (square.rs:10 under `{:x?}`). -/
def fmtHex (upper : Bool) (n : Nat) (buf : List U8 := []) : List U8 :=
  if n < 16 then hexByte upper n :: buf
  else fmtHex upper (n / 16) (hexByte upper (n % 16) :: buf)

/-- `core::fmt::Alignment`: `<`, `>` and `^` (square.rs:10 under, e.g., `{:<5?}`). -/
inductive Align where
  | Left | Right | Center
  deriving DecidableEq, Repr

/-- The options of a `core::fmt::Formatter`, what a format string can ask for: `{:#?}`, `{:5?}`,
`{:.1?}`, `{:*>5?}`, `{:+?}`, `{:05?}`, `{:x?}` (`some false`) and `{:X?}` (`some true`).  The builders hand
them on to every field (square.rs:10, position.rs:374). -/
structure FmtOpts where
  alternate : Bool := false
  width : Option Nat := none
  precision : Option Nat := none
  /-- The UTF-8 bytes of the fill character. -/
  fill : List U8 := ascii " "
  align : Option Align := none
  plus : Bool := false
  zero : Bool := false
  hex : Option Bool := none

/-- `core`'s `Formatter::padding`: what to write before and after (square.rs:10 under `{:5?}`). -/
def FmtOpts.padding (o : FmtOpts) (n : Nat) (default : Align) : List U8 × List U8 :=
  let pre := match o.align.getD default with
    | .Left => 0
    | .Right => n
    | .Center => n / 2
  ((List.replicate pre o.fill).flatten, (List.replicate (n - pre) o.fill).flatten)

/-- `core`'s `Formatter::pad_integral` for a number that is not negative (square.rs:10 etc.): the sign,
the prefix under `#`, the digits; the padding goes around all, or, with the flag `0`, as zeros
between the prefix and the digits.  A precision has no effect. -/
def FmtOpts.pad_integral (o : FmtOpts) (pre digits : List U8) : List U8 :=
  let sign := if o.plus then ascii "+" else []
  let pre := if o.alternate then pre else []
  let len := digits.length + sign.length + pre.length
  match o.width with
  | none => sign ++ pre ++ digits
  | some min =>
    if len ≥ min then sign ++ pre ++ digits
    else if o.zero then
      let p := ({ o with fill := ascii "0", align := some .Right }).padding (min - len) .Right
      sign ++ pre ++ p.1 ++ digits ++ p.2
    else
      let p := o.padding (min - len) .Right
      p.1 ++ sign ++ pre ++ digits ++ p.2

/-- `core`'s `Formatter::pad` for an ASCII text (`bool`, mv.rs:8): at most `precision` characters, then
padding up to the width, by default behind.  The flag `0` has no effect. -/
def FmtOpts.pad (o : FmtOpts) (s : List U8) : List U8 :=
  let s := match o.precision with
    | none => s
    | some max => s.take max
  match o.width with
  | none => s
  | some w =>
    if s.length ≥ w then s
    else
      let p := o.padding (w - s.length) .Left
      p.1 ++ s ++ p.2

/-- `Debug` for unsigned integers: `LowerHex`, `UpperHex` or `Display` by the flags of the formatter
(square.rs:10). -/
def FmtOpts.integer (o : FmtOpts) (n : Nat) : List U8 :=
  match o.hex with
  | none => o.pad_integral [] (fmtNat n)
  | some upper => o.pad_integral (ascii "0x") (fmtHex upper n)

/-- `debug_tuple`, `debug_struct` and `debug_list` (square.rs:10, position.rs:374, hand.rs:11). -/
inductive DKind where
  | tuple | struct | list
  deriving DecidableEq, Repr

mutual
/-- The calls a `Debug` impl makes (e.g. position.rs:374): `write_str` (a unit variant), the formatting
of an integer, `pad` (a `bool`), or a builder with a name and entries. -/
inductive DTree where
  | word (text : List U8)
  | int (value : Nat)
  | padded (text : List U8)
  | node (kind : DKind) (name : List U8) (entries : DEntries)
/-- The entries of a builder in order; the label is used by `debug_struct` only (position.rs:374). -/
inductive DEntries where
  | nil
  | cons (label : List U8) (value : DTree) (rest : DEntries)
end

/-- `label: ` in front of a field's value, by `DebugStruct::field` only (position.rs:374). -/
def DKind.label : DKind → List U8 → List U8
  | .struct, l => l ++ ascii ": "
  | _, _ => []

mutual
/-- `{:?}` (the `derive(Debug)` of, e.g., position.rs:374) with the other options. -/
def DTree.compact (o : FmtOpts) : DTree → List U8
  | .word w => w
  | .int n => o.integer n
  | .padded w => o.pad w
  | .node .tuple n es => n ++ ascii "(" ++ es.compact o .tuple ++ ascii ")"
  | .node .struct n es => n ++ ascii " { " ++ es.compact o .struct ++ ascii " }"
  | .node .list n es => n ++ ascii "[" ++ es.compact o .list ++ ascii "]"
/-- The entries under `{:?}`, separated by `, ` (position.rs:374). -/
def DEntries.compact (o : FmtOpts) (k : DKind) : DEntries → List U8
  | .nil => []
  | .cons l t .nil => k.label l ++ t.compact o
  | .cons l t (.cons l' t' r) =>
    k.label l ++ t.compact o ++ ascii ", " ++ DEntries.compact o k (.cons l' t' r)
end

/-- `core`'s `PadAdapter::write_str`: four spaces at the start of every line (position.rs:374
under `{:#?}`).  The first argument is the adapter's `on_newline`. -/
def padAdapter : Bool → List U8 → List U8
  | _, [] => []
  | on, b :: r => (if on then ascii "    " else []) ++ b :: padAdapter (b == asciiByte '\n') r

mutual
/-- `{:#?}` (the `derive(Debug)` of, e.g., position.rs:374) with the other options, which
`PadAdapter` leaves as they are. -/
def DTree.pretty (o : FmtOpts) : DTree → List U8
  | .word w => w
  | .int n => o.integer n
  | .padded w => o.pad w
  | .node .tuple n es => n ++ ascii "(\n" ++ es.pretty o .tuple ++ ascii ")"
  | .node .struct n es => n ++ ascii " {\n" ++ es.pretty o .struct ++ ascii "}"
  | .node .list n .nil => n ++ ascii "[]"
  | .node .list n (.cons l t r) =>
    n ++ ascii "[\n" ++ DEntries.pretty o .list (.cons l t r) ++ ascii "]"
/-- The entries under `{:#?}`, each on lines of its own through a new `PadAdapter`
(position.rs:374). -/
def DEntries.pretty (o : FmtOpts) (k : DKind) : DEntries → List U8
  | .nil => []
  | .cons l t r => padAdapter true (k.label l ++ t.pretty o ++ ascii ",\n") ++ DEntries.pretty o k r
end

/-- `trait Debug` (square.rs:10 etc.). -/
class Debug (α : Type) where
  tree : α → DTree

/-- `format!` of a value with `?` and any other options (e.g. position.rs:374). -/
def debugWith {α : Type} [Debug α] (o : FmtOpts) (a : α) : List U8 :=
  if o.alternate then (Debug.tree a).pretty o else (Debug.tree a).compact o
/-- `format!("{:?}", a)` (e.g. position.rs:374). -/
def debugText {α : Type} [Debug α] (a : α) : List U8 := debugWith {} a
/-- `format!("{:#?}", a)` (e.g. position.rs:374). -/
def debugPretty {α : Type} [Debug α] (a : α) : List U8 := debugWith { alternate := true } a

/-- The entries of a list builder (hand.rs:11, position.rs:100). -/
def DEntries.ofList : List DTree → DEntries
  | [] => .nil
  | t :: r => .cons [] t (DEntries.ofList r)

/-- The entries of a struct builder (position.rs:374). -/
def DEntries.ofFields : List (List U8 × DTree) → DEntries
  | [] => .nil
  | (l, t) :: r => .cons l t (DEntries.ofFields r)

/-- `debug_tuple(name).field(a).finish()` for the single-field tuple structs (square.rs:10). -/
def DTree.newtype (name : String) (a : DTree) : DTree := .node .tuple (ascii name) (.ofList [a])

/-- `debug_struct(name).field(..)...finish()` (position.rs:374). -/
def DTree.struct (name : String) (fields : List (String × DTree)) : DTree :=
  .node .struct (ascii name) (.ofFields (fields.map fun f => (ascii f.1, f.2)))

/-- `Debug` for unsigned integers; `NonZeroU8`/`NonZeroU16` forward to it (square.rs:10). -/
instance {n : Nat} : Debug (BitVec n) := ⟨fun a => .int a.toNat⟩
/-- `Debug` for `bool` (mv.rs:8). -/
instance : Debug Bool := ⟨fun a => .padded (if a then ascii "true" else ascii "false")⟩
/-- `Debug` for `Vec<T>`, `[T; N]` and `&[T]` (position.rs:100, 374; hand.rs:11). -/
instance {α : Type} [Debug α] : Debug (List α) :=
  ⟨fun l => .node .list [] (.ofList (l.map Debug.tree))⟩
/-- `Debug` for `[T; N]` (position.rs:374). -/
instance {α : Type} {n : Nat} [Debug α] : Debug (Vector α n) := ⟨fun v => Debug.tree v.toList⟩
/-- `Debug` for `Option<T>`, what most of the accessors return (e.g. position.rs:209). -/
instance {α : Type} [Debug α] : Debug (Option α) :=
  ⟨fun | none => .word (ascii "None") | some a => .newtype "Some" (Debug.tree a)⟩

/-! ### The impls -/

/-- color.rs:8. -/
instance : Debug Color :=
  ⟨fun | .Black => .word (ascii "Black") | .White => .word (ascii "White")⟩

/-- piece_kind.rs:8. -/
instance : Debug PieceKind := ⟨fun
  | .Pawn => .word (ascii "Pawn") | .Lance => .word (ascii "Lance")
  | .Knight => .word (ascii "Knight") | .Silver => .word (ascii "Silver")
  | .Gold => .word (ascii "Gold") | .Bishop => .word (ascii "Bishop")
  | .Rook => .word (ascii "Rook") | .King => .word (ascii "King")
  | .ProPawn => .word (ascii "ProPawn") | .ProLance => .word (ascii "ProLance")
  | .ProKnight => .word (ascii "ProKnight") | .ProSilver => .word (ascii "ProSilver")
  | .ProBishop => .word (ascii "ProBishop") | .ProRook => .word (ascii "ProRook")⟩

/-- game_resolution.rs:6. -/
instance : Debug GameResolution := ⟨fun
  | .BlackWins => .word (ascii "BlackWins") | .WhiteWins => .word (ascii "WhiteWins")
  | .Draw => .word (ascii "Draw") | .Rematch => .word (ascii "Rematch")
  | .Aborted => .word (ascii "Aborted")⟩

/-- illegal_move_kind.rs:8. -/
instance : Debug IllegalMoveKind := ⟨fun
  | .TwoPawns => .word (ascii "TwoPawns") | .IgnoredCheck => .word (ascii "IgnoredCheck")
  | .DropPawnMate => .word (ascii "DropPawnMate") | .DropStuck => .word (ascii "DropStuck")
  | .NormalStuck => .word (ascii "NormalStuck") | .GameFinished => .word (ascii "GameFinished")
  | .IncorrectMove => .word (ascii "IncorrectMove")⟩

/-- legality.rs:10. -/
instance : Debug PositionStatus := ⟨fun
  | .BlackWins => .word (ascii "BlackWins") | .WhiteWins => .word (ascii "WhiteWins")
  | .Draw => .word (ascii "Draw") | .InProgress => .word (ascii "InProgress")
  | .Invalid => .word (ascii "Invalid")⟩

/-- square.rs:10. -/
instance : Debug Square := ⟨fun a => .newtype "Square" (Debug.tree a.val)⟩
/-- square.rs:287. -/
instance : Debug OptionSquare := ⟨fun a => .newtype "OptionSquare" (Debug.tree a.val)⟩
/-- piece.rs:19. -/
instance : Debug Piece := ⟨fun a => .newtype "Piece" (Debug.tree a.val)⟩
/-- piece.rs:30. -/
instance : Debug OptionPiece := ⟨fun a => .newtype "OptionPiece" (Debug.tree a.val)⟩
/-- mv.rs:177. -/
instance : Debug CompactMove := ⟨fun a => .newtype "CompactMove" (Debug.tree a.val)⟩
/-- mv.rs:304. -/
instance : Debug OptionCompactMove := ⟨fun a => .newtype "OptionCompactMove" (Debug.tree a.val)⟩
/-- game_resolution.rs:57. -/
instance : Debug OptionGameResolution :=
  ⟨fun a => .newtype "OptionGameResolution" (Debug.tree a.val)⟩
/-- illegal_move_kind.rs:80. -/
instance : Debug ResultUnitIllegalMoveKind :=
  ⟨fun a => .newtype "ResultUnitIllegalMoveKind" (Debug.tree a.val)⟩
/-- hand.rs:11: all eight bytes. -/
instance : Debug Hand := ⟨fun a => .newtype "Hand" (Debug.tree a.cells)⟩
/-- bitboard.rs:10: both words. -/
instance : Debug Bitboard := ⟨fun a => .newtype "Bitboard" (Debug.tree [a.w0, a.w1])⟩
/-- bitboard.rs:529. -/
instance : Debug ByteSwappedBitboard :=
  ⟨fun a => .newtype "ByteSwappedBitboard" (Debug.tree [a.w0, a.w1])⟩

/-- mv.rs:8 (struct variants). -/
instance : Debug Move := ⟨fun
  | .Normal src to promote => .struct "Normal"
      [("from", Debug.tree src), ("to", Debug.tree to), ("promote", Debug.tree promote)]
  | .Drop piece to => .struct "Drop" [("piece", Debug.tree piece), ("to", Debug.tree to)]⟩

/-- position.rs:374: all eight fields. -/
instance : Debug PartialPosition := ⟨fun a => .struct "PartialPosition"
  [("side", Debug.tree a.side), ("ply", Debug.tree a.ply), ("hands", Debug.tree a.hands),
   ("board", Debug.tree a.board), ("player_bb", Debug.tree a.player_bb),
   ("piece_bb", Debug.tree a.piece_bb), ("last_move", Debug.tree a.last_move),
   ("king_square", Debug.tree a.king_square)]⟩
/-- position.rs:57. -/
instance : Debug PartialGame := ⟨fun a => .struct "PartialGame"
  [("inner", Debug.tree a.inner), ("resolution", Debug.tree a.resolution)]⟩
/-- position.rs:100. -/
instance : Debug Position := ⟨fun a => .struct "Position"
  [("initial", Debug.tree a.initial), ("inner", Debug.tree a.inner), ("moves", Debug.tree a.moves)]⟩
/-- position.rs:13. -/
instance : Debug Game := ⟨fun a => .struct "Game"
  [("inner", Debug.tree a.inner), ("resolution", Debug.tree a.resolution)]⟩

end ShogiCore
