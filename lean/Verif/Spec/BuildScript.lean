import Verif.Model.BuildScript
import Verif.Spec.RustText

/- What the generated files have to say. -/

namespace ShogiCore
open RustText

/-- The two files of the build directory. -/
def pieceFile (dir : Path) : Path := Path.join dir (ascii "piece_consts.rs")
/-- The two files of the build directory. -/
def squareFile (dir : Path) : Path := Path.join dir (ascii "square_consts.rs")

/-- A file of constants for the type `type`, once in an `impl` block and once in a module: there is
one constant for each of `values`, in that order, with the name and the initialiser given for it, and
each constant of the module is documented as being the one of the type. -/
def Declares {α : Type} (l : List U8) (type module : String) (values : List α) (name : α → String)
    (init : α → Init) : Prop :=
  read l = some ⟨ascii type, values.map fun a => ⟨[], ascii (name a), ascii type, init a⟩,
    ascii module, values.map fun a =>
      ⟨[ascii (" Also available as `" ++ type ++ "::" ++ name a ++ "`.")], ascii (name a),
        ascii type, init a⟩⟩

/-- The names of kinds and colours in constants. -/
def kindLetters : PieceKind → String
  | .Pawn => "P" | .Lance => "L" | .Knight => "N" | .Silver => "S" | .Gold => "G"
  | .Bishop => "B" | .Rook => "R" | .King => "K" | .ProPawn => "PP" | .ProLance => "PL"
  | .ProKnight => "PN" | .ProSilver => "PS" | .ProBishop => "PB" | .ProRook => "PR"

/-- The names of kinds in the source. -/
def kindName : PieceKind → String
  | .Pawn => "Pawn" | .Lance => "Lance" | .Knight => "Knight" | .Silver => "Silver"
  | .Gold => "Gold" | .Bishop => "Bishop" | .Rook => "Rook" | .King => "King"
  | .ProPawn => "ProPawn" | .ProLance => "ProLance" | .ProKnight => "ProKnight"
  | .ProSilver => "ProSilver" | .ProBishop => "ProBishop" | .ProRook => "ProRook"

/-- All pieces, Black's first. -/
def declaredPieces : List (Color × PieceKind) :=
  [Color.Black, .White].flatMap fun c => PieceKind.all.map fun k => (c, k)

/-- All squares as file and rank, file by file. -/
def declaredSquares : List (Nat × Nat) :=
  [1, 2, 3, 4, 5, 6, 7, 8, 9].flatMap fun f => [1, 2, 3, 4, 5, 6, 7, 8, 9].map fun r => (f, r)

/-- `B_P`, `W_PR` and so on. -/
def pieceName (p : Color × PieceKind) : String :=
  (match p.1 with | .Black => "B" | .White => "W") ++ "_" ++ kindLetters p.2

/-- `Piece::new` of that kind and colour. -/
def pieceInit (p : Color × PieceKind) : Init :=
  .piece (ascii (kindName p.2)) (ascii (match p.1 with | .Black => "Black" | .White => "White"))

/-- `SQ_1A` and so on. -/
def squareName (s : Nat × Nat) : String :=
  "SQ_" ++ ["", "1", "2", "3", "4", "5", "6", "7", "8", "9"][s.1]! ++
    ["", "A", "B", "C", "D", "E", "F", "G", "H", "I"][s.2]!

/-- The number of the square, counted from 1. -/
def squareInit (s : Nat × Nat) : Init := .square (ascii (toString (9 * (s.1 - 1) + s.2)))

/-- The value of an initialiser of type `Piece`; `none` if it does not compile. -/
def pieceValue [Profile] : Init → Option (Res Piece)
  | .piece k c => do
    let k ← PieceKind.all.find? fun x => ascii (kindName x) = k
    let c ← [Color.Black, .White].find? fun x =>
      ascii (match x with | .Black => "Black" | .White => "White") = c
    return Piece.new k c
  | .square _ => none

/-- A decimal number. -/
def decimalValue (l : List U8) : Nat := l.foldl (fun n b => 10 * n + (b.toNat - 48)) 0

/-- The value of an initialiser of type `Square`; `none` if it does not compile. -/
def squareValue [Profile] : Init → Option (Res Square)
  | .square n => if decimalValue n < 256 then
      some (Square.from_u8_unchecked (BitVec.ofNat 8 (decimalValue n))) else none
  | .piece _ _ => none

/-- What cargo reads on standard output: run the script again if it has changed. -/
def rerunLine : List U8 := ascii "cargo:rerun-if-changed=build.rs\n"

/-- A path in which a system sees the same file: a slash after a slash means nothing. -/
def squeeze : Path → Path
  | [] => []
  | [b] => [b]
  | b :: c :: l => if b = 47 ∧ c = 47 then squeeze (c :: l) else b :: squeeze (c :: l)

end ShogiCore
