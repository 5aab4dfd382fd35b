import Verif.Model.Layout

/- Models c_tests/position.c, the C program the repository tests its C interface with. -/

namespace ShogiCore

/-- `strcmp(a, b) == 0` of the C library (c_tests/position.c:11, 19): byte by byte up to the first
difference or the first NUL.  `fuel` bounds the number of bytes looked at; `none`: not finished by
then. -/
def strEq (m : Mem) : Nat → Nat → Nat → Res (Option Bool)
  | 0, _, _ => .ok none
  | fuel + 1, a, b => do
    let x ← m.read a
    let y ← m.read b
    if x ≠ y then return some false
    else if x = 0 then return some true
    else strEq m fuel (a + 1) (b + 1)

/-- The text in c_tests/position.c:11, 19. -/
def cTestText : List U8 := ascii "lnsgkgsnl/1r5b1/ppppppppp/9/9/9/PPPPPPPPP/1B5R1/LNSGKGSNL b - 1"

/-- c_tests/position.c:6-21 `main`: the memory at the end and what the two `assert`s got.  `pos`,
`buf` and `lit` are the addresses of the variables and of the string literal.  Simplification: the
`Position` on the heap is a value (Model/Boxed.lean has its address). -/
def c_test_main [Target] [Profile] (m : Mem) (pos buf lit fuel : Nat) :
    Res (Mem × Option Bool × Option Bool) := do
  let m ← startpos_ptr m pos
  let m ← to_sfen_c_ptr m pos buf
  let r1 ← strEq m fuel buf lit
  let (m, _) ← memset m buf 0 200
  let p ← Position.startpos
  let m ← p.to_sfen_c m buf
  let r2 ← strEq m fuel buf lit
  return (m, r1, r2)

end ShogiCore
