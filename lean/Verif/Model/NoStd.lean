import Verif.Model.Mem

/- Models shogi_core_c/src/no_std.rs: the memory functions and the bump allocator. -/

namespace ShogiCore

/-! ### Memory functions -/

/-- no_std.rs:5-8, the loop of `memcpy` over the remaining `i`. -/
def memcpy_loop (dest src : Nat) : List Nat → Mem → Res Mem
  | [], m => .ok m
  | i :: rest, m => do
    let value ← m.read (src + i)
    let m ← m.write (dest + i) value
    memcpy_loop dest src rest m

/-- no_std.rs:4-10 `memcpy` (memory after the call, returned pointer). -/
def memcpy (m : Mem) (dest src n : Nat) : Res (Mem × Nat) := do
  let m ← memcpy_loop dest src (List.range n) m
  return (m, dest)

/-- no_std.rs:14-16, the loop of `memset`. -/
def memset_loop (b : Nat) (c : I32) : List Nat → Mem → Res Mem
  | [], m => .ok m
  | i :: rest, m => do
    let m ← m.write (b + i) (cast 8 c)
    memset_loop b c rest m

/-- no_std.rs:13-18 `memset`. -/
def memset (m : Mem) (b : Nat) (c : I32) (n : Nat) : Res (Mem × Nat) := do
  let m ← memset_loop b c (List.range n) m
  return (m, b)

/-- no_std.rs:22-29, the loop of `memcmp`. -/
def memcmp_loop [Profile] (m : Mem) (s1 s2 : Nat) : List Nat → Res I32
  | [] => .ok 0
  | i :: rest => do
    let value1 ← m.read (s1 + i)
    let value2 ← m.read (s2 + i)
    if value1 ≠ value2 then csubs (cast 32 value1) (cast 32 value2)
    else memcmp_loop m s1 s2 rest

/-- no_std.rs:21-30 `memcmp`. -/
def memcmp [Profile] (m : Mem) (s1 s2 n : Nat) : Res I32 := memcmp_loop m s1 s2 (List.range n)

/-- no_std.rs:38-40, the loop of `__bzero`. -/
def bzero_loop (s : Nat) : List Nat → Mem → Res Mem
  | [], m => .ok m
  | i :: rest, m => do
    let m ← m.write (s + i) 0
    bzero_loop s rest m

/-- no_std.rs:35-41 `__bzero`. -/
def bzero (m : Mem) (s n : Nat) : Res Mem := bzero_loop s (List.range n) m

/-! ### Allocator -/

/-- no_std.rs:66 `ARENA_SIZE`. -/
def ARENA_SIZE [Profile] : Usize := 128 * 1024
/-- no_std.rs:67 `MAX_SUPPORTED_ALIGN`. -/
def MAX_SUPPORTED_ALIGN [Profile] : Usize := 4096

/-- `core::alloc::Layout` (size, align), no_std.rs:83-84. -/
structure Layout [Profile] where
  size : Usize
  align : Usize
  deriving DecidableEq, Repr

/-- no_std.rs:88 `align_mask_to_round_down`. -/
def align_mask [Profile] (align : Usize) : Res Usize := do return ~~~(← csub align 1)

/-- no_std.rs:97-105, the `fetch_update` closure: new value of `remaining` (which is also
what it stores in `allocated`), or `None`. -/
def alloc_closure [Profile] (l : Layout) (mask remaining : Usize) : Res (Option Usize) := do
  if remaining.toNat < l.size.toNat then return none
  else
    let remaining ← csub remaining l.size
    let remaining := remaining &&& mask
    return some remaining

/-- Where a thread is inside one call of `alloc` (no_std.rs:82-111).  `fetch_update` is
`core`'s loop: load; closure; `compare_exchange_weak`, retrying with the value seen. -/
inductive AllocPc [Profile] where
  /-- entered, nothing executed yet -/
  | start
  /-- inside `fetch_update`: `prev` is the value last read; the closure is about to run
  on it -/
  | loaded (mask prev : Usize)
  /-- the closure returned `Some(next)` and set `allocated = next`; the
  `compare_exchange_weak(prev, next)` is about to run -/
  | cas (mask prev next : Usize)
  /-- returned: `none` = null pointer, `some a` = arena base + `a` -/
  | done (r : Option Usize)
  /-- panicked -/
  | panicked
  deriving DecidableEq, Repr

/-- One thread's call of `alloc` (no_std.rs:82). -/
structure AllocThread [Profile] where
  layout : Layout
  pc : AllocPc
  deriving DecidableEq, Repr

/-- Global state: the atomic counter (no_std.rs:69) and every call made so far (each call
is its own entry; a thread that calls again appears again). -/
structure AllocState [Profile] where
  remaining : Usize
  calls : List AllocThread
  deriving DecidableEq, Repr

/-- no_std.rs:75-77 the initial state. -/
def AllocState.init [Profile] : AllocState := ⟨ARENA_SIZE, []⟩

/-- One atomic step of one call: new counter value and new program counter.  The
compare-exchange may fail spuriously, so this is a relation (no_std.rs:82-111). -/
inductive AllocStep [Profile] (l : Layout) : Usize × AllocPc → Usize × AllocPc → Prop
  /-- no_std.rs:88: the mask computation panics (`align = 0`, checks on) -/
  | mask_panic (rem) : align_mask l.align = .panic → AllocStep l (rem, .start) (rem, .panicked)
  /-- no_std.rs:90-92 -/
  | too_aligned (rem) (mask) : align_mask l.align = .ok mask →
      MAX_SUPPORTED_ALIGN.toNat < l.align.toNat →
      AllocStep l (rem, .start) (rem, .done none)
  /-- no_std.rs:95-97: the initial load of `fetch_update` -/
  | load (rem) (mask) : align_mask l.align = .ok mask →
      ¬ MAX_SUPPORTED_ALIGN.toNat < l.align.toNat →
      AllocStep l (rem, .start) (rem, .loaded mask rem)
  /-- no_std.rs:98-100, 106-109: the closure declines -/
  | exhausted (rem mask prev) : alloc_closure l mask prev = .ok none →
      AllocStep l (rem, .loaded mask prev) (rem, .done none)
  /-- no_std.rs:101: overflow check in the closure -/
  | closure_panic (rem mask prev) : alloc_closure l mask prev = .panic →
      AllocStep l (rem, .loaded mask prev) (rem, .panicked)
  /-- no_std.rs:101-104: the closure proposes `next` -/
  | propose (rem mask prev next) : alloc_closure l mask prev = .ok (some next) →
      AllocStep l (rem, .loaded mask prev) (rem, .cas mask prev next)
  /-- the exchange succeeds; no_std.rs:110 returns `base + allocated` -/
  | cas_ok (mask prev next) :
      AllocStep l (prev, .cas mask prev next) (next, .done (some next))
  /-- the exchange fails (another thread won, or spuriously) and reports the current value -/
  | cas_fail (rem mask prev next) :
      AllocStep l (rem, .cas mask prev next) (rem, .loaded mask rem)

/-- The interleaving semantics: a new call begins, or some call takes one step.
`dealloc` (no_std.rs:112) does nothing and so needs no transition. -/
inductive AllocTrans [Profile] : AllocState → AllocState → Prop
  | call (s : AllocState) (l : Layout) :
      AllocTrans s { s with calls := s.calls ++ [⟨l, .start⟩] }
  | step (s : AllocState) (i : Nat) (h : i < s.calls.length) (rem : Usize) (pc : AllocPc) :
      AllocStep s.calls[i].layout (s.remaining, s.calls[i].pc) (rem, pc) →
      AllocTrans s ⟨rem, s.calls.set i ⟨s.calls[i].layout, pc⟩⟩

/-- States reachable under any interleaving of any number of calls (no_std.rs:81-113). -/
inductive AllocReachable [Profile] : AllocState → Prop
  | init : AllocReachable .init
  | trans {s s'} : AllocReachable s → AllocTrans s s' → AllocReachable s'

end ShogiCore
