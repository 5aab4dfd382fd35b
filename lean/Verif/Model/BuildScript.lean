import Verif.Model.BuildConsts
import Verif.Model.Debug

/- Models shogi_core/build.rs as a program that talks to an operating system: environment, files
and standard output.  `std` is not in /repo; what it does with the system is modelled from its
documentation.  No other process writes to the same files. -/

namespace ShogiCore

/-- A path (build.rs:115), as its bytes. -/
abbrev Path := List U8

/-- What build.rs:113-123 reads and changes: the contents of files, and what was printed. -/
structure World where
  fs : Path → Option (List U8)
  out : List U8

/-- How a part of build.rs:113-123 ends: with a value, with `Err`, or by a panic (line 114). -/
inductive Exit (α : Type) where
  | ok (a : α)
  | err
  | panic

/-- Programs whose calls of the operating system may turn out in several ways (build.rs:113): the
worlds before and after, and how it ended. -/
def Io (α : Type) : Type := World → Exit α → World → Prop

/-- Sequencing with `?` (e.g. build.rs:13): an `Err` returns immediately, a panic aborts. -/
def Io.bind {α β : Type} (x : Io α) (f : α → Io β) : Io β := fun w r w' =>
  ∃ e v, x w e v ∧
    match e with
    | .ok a => f a v r w'
    | .err => r = .err ∧ w' = v
    | .panic => r = .panic ∧ w' = v

/-- Statements run in sequence (e.g. build.rs:114-117). -/
instance : Monad Io where
  pure a := fun w r w' => r = .ok a ∧ w' = w
  bind := Io.bind

/-- The world after `path` got these contents (build.rs:116). -/
def World.set (w : World) (path : Path) (l : List U8) : World :=
  { w with fs := fun p => if p = path then some l else w.fs p }

/-- The loop of `Write::write_all` (build.rs:7, 40, 63, 86, 109): what is to be written, what the
file holds before and after, and whether it succeeded.  A call of the system writes a nonempty part
of the buffer, or nothing at all (an error, `WriteZero`), or is interrupted and repeated, or
fails. -/
inductive WriteAll : List U8 → List U8 → List U8 → Bool → Prop
  | done (f : List U8) : WriteAll [] f f true
  | part {buf f g : List U8} {b : Bool} (n : Nat) : 0 < n → n ≤ buf.length →
      WriteAll (buf.drop n) (f ++ buf.take n) g b → WriteAll buf f g b
  | interrupted {buf f g : List U8} {b : Bool} : buf ≠ [] → WriteAll buf f g b →
      WriteAll buf f g b
  | failed {buf : List U8} (f : List U8) : buf ≠ [] → WriteAll buf f f false

/-- `dest_file.write_all(…)` (build.rs:7, 40, 63, 86, 109). -/
def write_all (dest_file : Path) (buf : List U8) : Io Unit := fun w r w' =>
  ∃ f g b, w.fs dest_file = some f ∧ WriteAll buf f g b ∧ w' = w.set dest_file g ∧
    r = if b then .ok () else .err

/-- `write!(dest_file, …)` and `writeln!` (build.rs:33, 50, 68, 78, 97): the parts of the text and
the arguments are written one after another.  (How rustc cuts the text into parts does not matter
below.) -/
def write_fmt (dest_file : Path) (parts : List (List U8)) : Io Unit :=
  parts.forM (write_all dest_file)

/-- build.rs:6-65 `generate_piece_consts`. -/
def generate_piece_consts (dest_file : Path) : Io Unit := do
  write_all dest_file (ascii "use crate::{Color, Piece, PieceKind};\n// Constants in Piece\n#[doc(hidden)]\nimpl Piece {\n")
  color_table.forM fun (color_short_name, color_ident) =>
    piece_table.forM fun (piece_short_name, piece_ident) =>
      write_fmt dest_file [ascii "    pub const ", ascii color_short_name, ascii "_",
        ascii piece_short_name, ascii ": Piece = Piece::new(PieceKind::", ascii piece_ident,
        ascii ", Color::", ascii color_ident, ascii ");\n"]
  write_all dest_file
    (ascii "}\n\n/// Constants of type [`Piece`].\npub mod piece {\n    use super::*;\n")
  color_table.forM fun (color_short_name, color_ident) =>
    piece_table.forM fun (piece_short_name, piece_ident) =>
      write_fmt dest_file [ascii "    /// Also available as `Piece::", ascii color_short_name,
        ascii "_", ascii piece_short_name, ascii "`.\n    pub const ", ascii color_short_name,
        ascii "_", ascii piece_short_name, ascii ": Piece = Piece::new(PieceKind::",
        ascii piece_ident, ascii ", Color::", ascii color_ident, ascii ");\n"]
  write_all dest_file (ascii "}\n")

/-- build.rs:67-111 `generate_square_consts`.  (`index` is a `u8`; no sum exceeds 81.) -/
def generate_square_consts (dest_file : Path) : Io Unit := do
  write_fmt dest_file
    [ascii "use crate::Square;\n// Constants in Square\n#[doc(hidden)]\nimpl Square {\n"]
  (List.range 81).forM fun index =>
    let file := index / 9 + 1
    let rank := index % 9
    write_fmt dest_file [ascii "    pub const SQ_", fmtNat file, [BitVec.ofNat 8 (rank + 65)],
      ascii ": Square = unsafe { Square::from_u8_unchecked(", fmtNat (index + 1), ascii ") };\n"]
  write_all dest_file
    (ascii "}\n\n/// Constants of type [`Square`].\npub mod square {\n    use super::Square;\n")
  (List.range 81).forM fun index =>
    let file := index / 9 + 1
    let rank := index % 9
    write_fmt dest_file [ascii "    /// Also available as `Square::SQ_", fmtNat file,
      [BitVec.ofNat 8 (rank + 65)], ascii "`.\n    pub const SQ_", fmtNat file,
      [BitVec.ofNat 8 (rank + 65)],
      ascii ": Square = unsafe { Square::from_u8_unchecked(", fmtNat (index + 1), ascii ") };\n"]
  write_all dest_file (ascii "}\n")

/-- `Path::new(&out_dir).join(name)` for a relative name (build.rs:115, 118), on a system whose
separator is `/`. -/
def Path.join (out_dir name : Path) : Path :=
  if out_dir = [] then name
  else if out_dir.getLast? = some 47 then out_dir ++ name
  else out_dir ++ 47 :: name

/-- `fs::File::create(path)` (build.rs:116, 119): an empty file, whatever was there, or `Err`. -/
def File.create (path : Path) : Io Unit := fun w r w' =>
  r = .ok () ∧ w' = w.set path [] ∨ r = .err ∧ w' = w

/-- `println!` (build.rs:121), which panics if standard output fails. -/
def println (line : List U8) : Io Unit := fun w r w' =>
  ∃ l b, WriteAll (line ++ [10]) w.out l b ∧ w' = { w with out := l } ∧
    r = if b then .ok () else .panic

/-- `env::var_os(…).unwrap()` (build.rs:114). -/
def unwrap {α : Type} : Option α → Io α
  | some a => pure a
  | none => fun w r w' => r = .panic ∧ w' = w

/-- build.rs:113-123 `main`, where `OUT_DIR` is the variable of the environment. -/
def buildMain (OUT_DIR : Option Path) : Io Unit := do
  let out_dir ← unwrap OUT_DIR
  let dest_path := Path.join out_dir (ascii "piece_consts.rs")
  File.create dest_path
  generate_piece_consts dest_path
  let dest_path := Path.join out_dir (ascii "square_consts.rs")
  File.create dest_path
  generate_square_consts dest_path
  println (ascii "cargo:rerun-if-changed=build.rs")

/-- The files that lib.rs:96-97 include: `concat!(env!("OUT_DIR"), name)`. -/
def includePath (OUT_DIR : Path) (name : String) : Path := OUT_DIR ++ ascii name

end ShogiCore
