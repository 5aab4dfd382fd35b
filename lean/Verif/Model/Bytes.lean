import Verif.Model.Recorder

/- Models the boxed positions of the C interface as bytes in the arena of no_std.rs: what
position.rs:101-105 declares is laid out by the compiler, `moves` in a block of its own, and every
function loads and stores bytes, one at a time, while other threads do the same elsewhere. -/

namespace ShogiCore

/-- The fields of `Position` with those of its `Vec` (position.rs:101-105): the address of the
buffer, its capacity and the number of moves in it.  Addresses are offsets from the start of the
arena. -/
structure PositionFields where
  initial : PartialPosition
  inner : PartialPosition
  ptr : Nat
  cap : Nat
  len : Nat

/-- What the language leaves to the compiler and to `alloc` for position.rs:101-105: the layouts of
`Position` and `Move`, what their bytes stand for (not all bytes stand for something, and padding
makes several stand for the same; numbers fit into `usize`), where in a `Position` its two
`PartialPosition`s are, and the capacity after growing. -/
structure Compiler [Profile] where
  position : Layout
  move : Layout
  fields : List U8 → Option PositionFields
  moveOf : List U8 → Option Move
  fits : ∀ bs h, fields bs = some h →
    h.ptr < 2 ^ Profile.bits ∧ h.cap < 2 ^ Profile.bits ∧ h.len < 2 ^ Profile.bits
  initialOff : Nat
  innerOff : Nat
  grow : Nat → Nat
  grow_lt : ∀ c, c < grow c

/-- A byte stored at an offset (e.g. position.rs:317). -/
abbrev ByteStore := Nat × U8

/-- The arena after a store (no_std.rs:73). -/
def storeByte (arena : Nat → U8) (s : ByteStore) : Nat → U8 := fun x =>
  if x = s.1 then s.2 else arena x

/-- The `n` bytes at offset `a` (e.g. position.rs:316 reading `self.inner`). -/
def bytesAt (arena : Nat → U8) (a n : Nat) : List U8 := (List.range n).map fun k => arena (a + k)

/-- The stores that write `bs` at offset `a`, in order of addresses (e.g. position.rs:316-317; the
order makes no difference to what is proved). -/
def storesAt (a : Nat) : List U8 → List ByteStore
  | [] => []
  | b :: bs => (a, b) :: storesAt (a + 1) bs

/-- The allocator, the calls whose blocks have become positions and buffers of moves, the bytes of
the arena, and for each live handle the stores that the function called last has still to do
(position.rs:101-105, no_std.rs:68-77). -/
structure ByteState [Profile] where
  alloc : AllocState
  used : List Nat
  bufs : List Nat
  arena : Nat → U8
  live : Nat → Option (List ByteStore)

/-- Nothing allocated, all bytes zero (no_std.rs:73-77). -/
def ByteState.init [Profile] : ByteState := ⟨.init, [], [], fun _ => 0, fun _ => none⟩

/-- Changing what a handle has still to do (position.rs:131, 140, 329). -/
def ByteState.set [Profile] (s : ByteState) (a : Nat) (o : Option (List ByteStore)) : ByteState :=
  { s with live := fun b => if b = a then o else s.live b }

/-- One step of any number of threads.  A function on a handle reads the bytes of its position
when it is called; then its stores are carried out one by one, with steps of others in between.
Functions on one handle do not overlap: `&mut` (position.rs:329) is exclusive.  As in `RecStep`,
failing allocations do not return, and a block for a buffer is one that `alloc` has returned. -/
inductive ByteStep [Profile] (C : Compiler) : ByteState → Option BoxEvent → ByteState → Prop
  /-- the allocator moves on -/
  | alloc {s : ByteState} {t : AllocState} : AllocTrans s.alloc t →
      ByteStep C s none { s with alloc := t }
  /-- somebody stores a byte in a block of their own, which is neither a position nor a buffer -/
  | other {s : ByteState} {k x : Nat} {l : Layout} {o : Usize} (v : U8) :
      s.alloc.calls[k]? = some ⟨l, .done (some o)⟩ → o.toNat ≤ x → x < o.toNat + l.size.toNat →
      k ∉ s.used → k ∉ s.bufs → ByteStep C s none { s with arena := storeByte s.arena (x, v) }
  /-- the function running on handle `a` stores its next byte -/
  | store {s : ByteState} {a : Nat} {b : ByteStore} {bs : List ByteStore} :
      s.live a = some (b :: bs) →
      ByteStep C s none ({ s with arena := storeByte s.arena b }.set a (some bs))
  /-- position.rs:128-132 `Position_startpos`: the bytes of a position whose `moves` is
  `Vec::new()`, with any dangling pointer -/
  | create {s : ByteState} {i ptr : Nat} {a : Usize} {p : Position} {bs : List U8} :
      s.alloc.calls[i]? = some ⟨C.position, .done (some a)⟩ → i ∉ s.used → i ∉ s.bufs →
      Position.startpos = .ok p → bs.length = C.position.size.toNat →
      C.fields bs = some ⟨p.initial, p.inner, ptr, 0, 0⟩ →
      ByteStep C s (some (.create a.toNat))
        ({ s with used := s.used ++ [i] }.set a.toNat (some (storesAt a.toNat bs)))
  /-- position.rs:328-332 and 315-316: the move is refused -/
  | refuse {s : ByteState} {a : Nat} {h : PositionFields} {mv m : Move} {c : CompactMove}
      {inner : PartialPosition} {bs : List U8} :
      s.live a = some [] → C.fields (bytesAt s.arena a C.position.size.toNat) = some h →
      CompactMove.ofMove mv = .ok c → c.toMove = .ok m →
      h.inner.make_move m = .ok (inner, none) → bs.length = C.position.size.toNat →
      C.fields bs = some { h with inner := inner } →
      ByteStep C s (some (.move a mv false)) (s.set a (some (storesAt a bs)))
  /-- position.rs:315-319: the move is made and there is room for it in the buffer -/
  | push {s : ByteState} {a : Nat} {h : PositionFields} {mv m : Move} {c : CompactMove}
      {inner : PartialPosition} {ms bs : List U8} :
      s.live a = some [] → C.fields (bytesAt s.arena a C.position.size.toNat) = some h →
      CompactMove.ofMove mv = .ok c → c.toMove = .ok m →
      h.inner.make_move m = .ok (inner, some ()) → h.len ≠ h.cap →
      ms.length = C.move.size.toNat → C.moveOf ms = some m → bs.length = C.position.size.toNat →
      C.fields bs = some { h with inner := inner, len := h.len + 1 } →
      ByteStep C s (some (.move a mv true))
        (s.set a (some (storesAt (h.ptr + h.len * C.move.size.toNat) ms ++ storesAt a bs)))
  /-- position.rs:315-319: the move is made and the buffer has to grow; call number `i` of `alloc`
  has returned the new one, and the old moves are copied (no_std.rs:4-10) -/
  | grow {s : ByteState} {a i : Nat} {o : Usize} {h : PositionFields} {mv m : Move}
      {c : CompactMove} {inner : PartialPosition} {ms bs : List U8} :
      s.live a = some [] → C.fields (bytesAt s.arena a C.position.size.toNat) = some h →
      CompactMove.ofMove mv = .ok c → c.toMove = .ok m →
      h.inner.make_move m = .ok (inner, some ()) → h.len = h.cap →
      C.grow h.cap * C.move.size.toNat < 2 ^ (Profile.bits - 1) →
      s.alloc.calls[i]? = some ⟨C.move.array (C.grow h.cap), .done (some o)⟩ →
      i ∉ s.used → i ∉ s.bufs →
      ms.length = C.move.size.toNat → C.moveOf ms = some m → bs.length = C.position.size.toNat →
      C.fields bs = some ⟨h.initial, inner, o.toNat, C.grow h.cap, h.len + 1⟩ →
      ByteStep C s (some (.move a mv true))
        ({ s with bufs := s.bufs ++ [i] }.set a
          (some (storesAt o.toNat (bytesAt s.arena h.ptr (h.cap * C.move.size.toNat)) ++
            storesAt (o.toNat + h.len * C.move.size.toNat) ms ++ storesAt a bs)))
  /-- position.rs:138-141 `Position_destruct`; `dealloc` does nothing (no_std.rs:112) -/
  | destruct {s : ByteState} {a : Nat} {h : PositionFields} :
      s.live a = some [] → C.fields (bytesAt s.arena a C.position.size.toNat) = some h →
      ByteStep C s (some (.destruct a)) (s.set a none)

/-- position.rs:110-114 `Position_inner`: the address of a field, with the arena at `base`. -/
def inner_ptr [Profile] (C : Compiler) (base a : Nat) : Nat := base + a + C.innerOff

/-- position.rs:117-121 `Position_initial_position`. -/
def initial_position_ptr [Profile] (C : Compiler) (base a : Nat) : Nat := base + a + C.initialOff

/-- Everything that can happen, with the calls made, oldest first (position.rs:108-335). -/
inductive ByteRun [Profile] (C : Compiler) : List BoxEvent → ByteState → Prop
  | init : ByteRun C [] .init
  | step {es s o t} : ByteRun C es s → ByteStep C s o t → ByteRun C (es ++ o.toList) t

end ShogiCore
