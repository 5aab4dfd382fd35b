import Verif.Model.Prelude

/- A byte-addressed memory for the code that works through raw pointers
(shogi_core_c/src/no_std.rs, position.rs:831-853).  Models the language, not the crate. -/

namespace ShogiCore

/-- Memory: the bytes the program may access; `none` is an address it may not touch
(what the pointers of no_std.rs:4-41 and position.rs:830-853 point into). -/
abbrev Mem := Nat → Option U8

namespace Mem

/-- `core::ptr::read(p)` for a byte pointer: UB at an address that is not accessible
(no_std.rs:6, 23-24). -/
def read (m : Mem) (p : Nat) : Res U8 :=
  match m p with
  | some v => .ok v
  | none => .ub

/-- `core::ptr::write(p, v)` for a byte pointer: UB at an address that is not accessible
(no_std.rs:7, 15, 39; position.rs:840). -/
def write (m : Mem) (p : Nat) (v : U8) : Res Mem :=
  match m p with
  | some _ => .ok (fun q => if q = p then some v else m q)
  | none => .ub

end Mem
end ShogiCore
