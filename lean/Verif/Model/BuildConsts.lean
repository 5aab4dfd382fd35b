import Verif.Model.Piece
import Verif.Model.Square

/- Models shogi_core/build.rs: the tables of generated constants.  The generated file is
Rust text; the model keeps, for each generated item, its name and its initialiser. -/

namespace ShogiCore

/-- build.rs:14 `color_table`. -/
def color_table : List (String × String) := [("B", "Black"), ("W", "White")]

/-- build.rs:15-30 `piece_table`. -/
def piece_table : List (String × String) :=
  [("P", "Pawn"), ("L", "Lance"), ("N", "Knight"), ("S", "Silver"), ("G", "Gold"),
   ("B", "Bishop"), ("R", "Rook"), ("K", "King"), ("PP", "ProPawn"), ("PL", "ProLance"),
   ("PN", "ProKnight"), ("PS", "ProSilver"), ("PB", "ProBishop"), ("PR", "ProRook")]

/-- How rustc resolves the identifier in `Color::{}` (build.rs:35): the variants of
color.rs:9-18. -/
def colorIdent : String → Option Color
  | "Black" => some .Black
  | "White" => some .White
  | _ => none

/-- How rustc resolves the identifier in `PieceKind::{}` (build.rs:35): the variants of
piece_kind.rs:9-108. -/
def pieceKindIdent : String → Option PieceKind
  | "Pawn" => some .Pawn | "Lance" => some .Lance | "Knight" => some .Knight
  | "Silver" => some .Silver | "Gold" => some .Gold | "Bishop" => some .Bishop
  | "Rook" => some .Rook | "King" => some .King | "ProPawn" => some .ProPawn
  | "ProLance" => some .ProLance | "ProKnight" => some .ProKnight
  | "ProSilver" => some .ProSilver | "ProBishop" => some .ProBishop
  | "ProRook" => some .ProRook | _ => none

/-- build.rs:31-39: name, kind identifier and colour identifier of the generated
associated constants `Piece::*`, in order. -/
def piece_consts_assoc : List (String × String × String) :=
  color_table.flatMap fun (color_short_name, color_ident) =>
    piece_table.map fun (piece_short_name, piece_ident) =>
      (color_short_name ++ "_" ++ piece_short_name, piece_ident, color_ident)

/-- build.rs:48-62: the same for the module `consts::piece`. -/
def piece_consts_mod : List (String × String × String) :=
  color_table.flatMap fun (color_short_name, color_ident) =>
    piece_table.map fun (piece_short_name, piece_ident) =>
      (color_short_name ++ "_" ++ piece_short_name, piece_ident, color_ident)

/-- build.rs:75-85: name and argument of `from_u8_unchecked` of the generated associated
constants `Square::*`, in order. -/
def square_consts_assoc : List (String × Nat) :=
  (List.range 81).map fun index =>
    let file := index / 9 + 1
    let rank := index % 9
    ("SQ_" ++ toString file ++ String.singleton (Char.ofNat (rank + 65)), index + 1)

/-- build.rs:94-108: the same for the module `consts::square`. -/
def square_consts_mod : List (String × Nat) :=
  (List.range 81).map fun index =>
    let file := index / 9 + 1
    let rank := index % 9
    ("SQ_" ++ toString file ++ String.singleton (Char.ofNat (rank + 65)), index + 1)

variable [Profile]

/-- The value of the constant whose initialiser is `Piece::new(PieceKind::k, Color::c)`
(build.rs:35).  An unresolvable identifier would not compile; it is modelled as a panic. -/
def evalPieceConst (k c : String) : Res Piece :=
  match pieceKindIdent k, colorIdent c with
  | some k, some c => Piece.new k c
  | _, _ => .panic

/-- `Piece::NAME` for a generated associated constant (build.rs:31-39). -/
def Piece.const (name : String) : Res Piece :=
  match piece_consts_assoc.lookup name with
  | some (k, c) => evalPieceConst k c
  | none => .panic

/-- `Square::NAME` for a generated associated constant (build.rs:80). -/
def Square.const (name : String) : Res Square :=
  match square_consts_assoc.lookup name with
  | some v => Square.from_u8_unchecked (BitVec.ofNat 8 v)
  | none => .panic

end ShogiCore
