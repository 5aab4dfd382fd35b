import Verif.Model.Boxed

/- Models the memory taken by the move lists of the boxed positions of the C interface
(position.rs:101-105, 315-319): `moves` is a `Vec<Move>` whose buffer comes from the allocator of
no_std.rs.  `Vec` is `alloc`'s code, written down here from its documentation: `Vec::new` does not
allocate; `push` allocates exactly when the length has reached the capacity, and then the new
capacity is at least one larger.  By how much it grows is left open by that documentation, so it
is a parameter (`grow`). -/

namespace ShogiCore

/-- `Layout::array::<T>(n)` for `T` of layout `M`: `n` elements without gaps (position.rs:104). -/
def Layout.array [Profile] (M : Layout) (n : Nat) : Layout := ⟨BitVec.ofNat Profile.bits (n * M.size.toNat), M.align⟩

/-- A boxed position with the capacity of its `moves` (position.rs:101-105). -/
structure Recorder where
  pos : Position
  cap : Nat

/-- The allocator, the calls of `alloc` whose blocks have become positions and those whose blocks
have become buffers of moves (both oldest first), and the live positions by address
(position.rs:101-105, no_std.rs:68-77). -/
structure RecState [Profile] where
  alloc : AllocState
  used : List Nat
  bufs : List Nat
  objs : Nat → Option Recorder

/-- Nothing allocated (no_std.rs:75-77). -/
def RecState.init [Profile] : RecState := ⟨.init, [], [], fun _ => none⟩

/-- Changing what is at one address (position.rs:131, 140, 329). -/
def RecState.set [Profile] (s : RecState) (a : Nat) (o : Option Recorder) : RecState :=
  { s with objs := fun b => if b = a then o else s.objs b }

/-- One step of any number of threads, as `BoxStep`, with the buffers.  `L` is the layout of
`Position`, `M` that of `Move`; the language leaves both to the compiler.  When an allocation fails
`push` calls the allocation error handler and when a buffer would take more than `isize::MAX` bytes
it panics; neither returns in this library (no_std.rs:45-56), so they have no step. -/
inductive RecStep [Profile] (L M : Layout) (grow : Nat → Nat) :
    RecState → Option BoxEvent → RecState → Prop
  /-- the allocator moves on -/
  | alloc {s : RecState} {t : AllocState} : AllocTrans s.alloc t →
      RecStep L M grow s none { s with alloc := t }
  /-- position.rs:128-132 `Position_startpos`; `moves` is `Vec::new()` (position.rs:144-150) -/
  | create {s : RecState} {i : Nat} {a : Usize} {p : Position} :
      s.alloc.calls[i]? = some ⟨L, .done (some a)⟩ → i ∉ s.used → i ∉ s.bufs →
      Position.startpos = .ok p →
      RecStep L M grow s (some (.create a.toNat))
        ({ s with used := s.used ++ [i] }.set a.toNat (some ⟨p, 0⟩))
  /-- position.rs:328-332 `Position_make_compact_move` when `push` (position.rs:317) finds room or
  is not reached -/
  | move {s : RecState} {a : Nat} {r : Recorder} {q : Position} {mv : Move} {c : CompactMove}
      {b : Bool} :
      s.objs a = some r → CompactMove.ofMove mv = .ok c →
      r.pos.make_compact_move c = .ok (q, b) → (b = true → r.pos.moves.length ≠ r.cap) →
      RecStep L M grow s (some (.move a mv b)) (s.set a (some ⟨q, r.cap⟩))
  /-- position.rs:328-332 when `push` (position.rs:317) has to grow the buffer: call number `i` of
  `alloc` has returned a block for it -/
  | grow {s : RecState} {a i : Nat} {o : Usize} {r : Recorder} {q : Position} {mv : Move}
      {c : CompactMove} :
      s.objs a = some r → CompactMove.ofMove mv = .ok c →
      r.pos.make_compact_move c = .ok (q, true) → r.pos.moves.length = r.cap →
      grow r.cap * M.size.toNat < 2 ^ (Profile.bits - 1) →
      s.alloc.calls[i]? = some ⟨M.array (grow r.cap), .done (some o)⟩ → i ∉ s.used → i ∉ s.bufs →
      RecStep L M grow s (some (.move a mv true))
        ({ s with bufs := s.bufs ++ [i] }.set a (some ⟨q, grow r.cap⟩))
  /-- position.rs:138-141 `Position_destruct`; `dealloc` does nothing, neither for the buffer nor
  for the position (no_std.rs:112) -/
  | destruct {s : RecState} {a : Nat} {r : Recorder} :
      s.objs a = some r → RecStep L M grow s (some (.destruct a)) (s.set a none)

/-- Everything that can happen, with the events seen, oldest first (position.rs:108-335). -/
inductive RecRun [Profile] (L M : Layout) (grow : Nat → Nat) : List BoxEvent → RecState → Prop
  | init : RecRun L M grow [] .init
  | step {es s o t} : RecRun L M grow es s → RecStep L M grow s o t →
      RecRun L M grow (es ++ o.toList) t

end ShogiCore
