import Verif.Model.NoStd

/- The arena of shogi_core_c/src/no_std.rs together with its contents, as used by a program that
allocates from it.  Models the `static` holding the bytes and the two `GlobalAlloc` methods that
`SimpleAllocator` inherits from `core` (`alloc_zeroed`, `realloc`); those two are `core`'s code,
written down here from its documentation. -/

namespace ShogiCore

/-- no_std.rs:69-77: the counter with the calls made so far, and the contents of `ARENA_BSS`
(offset → byte; only offsets below `ARENA_SIZE` exist). -/
structure Heap [Profile] where
  state : AllocState
  arena : Nat → U8

/-- no_std.rs:73-77: nothing allocated, all bytes `0x00`. -/
def Heap.init [Profile] : Heap := ⟨.init, fun _ => 0⟩

/-- The program's memory when `ARENA_BSS` lies at address `base` and the rest of the memory is
`rest` (no_std.rs:72, 110). -/
def Heap.mem [Profile] (h : Heap) (base : Nat) (rest : Mem) : Mem := fun q =>
  if base ≤ q ∧ q < base + ARENA_SIZE.toNat then some (h.arena (q - base)) else rest q

/-- `GlobalAlloc::alloc_zeroed` (inherited by no_std.rs:81-113) once `alloc` has returned offset
`a`: `write_bytes(ptr, 0, size)`, which in this library is no_std.rs:13-18. -/
def zero_block [Profile] (m : Mem) (base a : Nat) (l : Layout) : Res (Mem × Nat) :=
  memset m (base + a) 0 l.size.toNat

/-- `GlobalAlloc::realloc` (inherited by no_std.rs:81-113) once `alloc` has returned offset `b`
for the new layout: `copy_nonoverlapping(old, new, min(old size, new size))`, which in this
library is no_std.rs:4-10, and then `dealloc`, which does nothing (no_std.rs:112). -/
def move_block [Profile] (m : Mem) (base a b : Nat) (l l' : Layout) : Res (Mem × Nat) :=
  memcpy m (base + b) (base + a) (min l.size.toNat l'.size.toNat)

end ShogiCore
