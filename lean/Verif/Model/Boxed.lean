import Verif.Model.Position
import Verif.Model.NoStd

/- Models the `Position` objects of the C interface (position.rs:124-142): boxes on the heap of
no_std.rs, named by their addresses. -/

namespace ShogiCore

/-- What a caller sees: a handle is created, a move is made through one (with the result), one is
destructed.  Handles are offsets from the start of the arena (position.rs:128-141, 328-332). -/
inductive BoxEvent
  | create (a : Nat)
  | move (a : Nat) (mv : Move) (b : Bool)
  | destruct (a : Nat)
  deriving DecidableEq, Repr

/-- The allocator, the calls of `alloc` whose blocks have become positions (oldest first), and the
live positions by address.  Simplification: a position is a value; the buffer of its `moves` takes
memory through the allocator but its bytes are not represented (they are in Model/Bytes.lean).
(position.rs:101-105, no_std.rs:68-77.) -/
structure BoxState [Profile] where
  alloc : AllocState
  used : List Nat
  objs : Nat → Option Position

/-- Nothing allocated (no_std.rs:75-77). -/
def BoxState.init [Profile] : BoxState := ⟨.init, [], fun _ => none⟩

/-- Changing what is at one address (position.rs:131, 140, 329). -/
def BoxState.set [Profile] (s : BoxState) (a : Nat) (o : Option Position) : BoxState :=
  { s with objs := fun b => if b = a then o else s.objs b }

/-- One step of any number of threads.  `L` is the layout of `Position`, which the language leaves
to the compiler.  A null pointer from `alloc` makes `Box::new` call the allocation error handler,
which never returns (no_std.rs), so it has no step here.  Calls with handles that are not live
break the contract of position.rs:136-137 and have no step either. -/
inductive BoxStep [Profile] (L : Layout) : BoxState → Option BoxEvent → BoxState → Prop
  /-- the allocator moves on: for `Box::new`, for `Vec::push` in `make_move`, or for others -/
  | alloc {s : BoxState} {t : AllocState} : AllocTrans s.alloc t →
      BoxStep L s none { s with alloc := t }
  /-- position.rs:128-132 `Position_startpos`: call number `i` of `alloc` has returned `a` -/
  | create {s : BoxState} {i : Nat} {a : Usize} {p : Position} :
      s.alloc.calls[i]? = some ⟨L, .done (some a)⟩ → i ∉ s.used → Position.startpos = .ok p →
      BoxStep L s (some (.create a.toNat)) ({ s with used := s.used ++ [i] }.set a.toNat (some p))
  /-- position.rs:328-332 `Position_make_compact_move` -/
  | move {s : BoxState} {a : Nat} {p q : Position} {mv : Move} {c : CompactMove} {b : Bool} :
      s.objs a = some p → CompactMove.ofMove mv = .ok c →
      p.make_compact_move c = .ok (q, b) → BoxStep L s (some (.move a mv b)) (s.set a (some q))
  /-- position.rs:138-141 `Position_destruct`; `dealloc` does nothing (no_std.rs:112) -/
  | destruct {s : BoxState} {a : Nat} {p : Position} :
      s.objs a = some p → BoxStep L s (some (.destruct a)) (s.set a none)

/-- Everything that can happen with boxed positions (position.rs:128-141), with the events seen,
oldest first. -/
inductive BoxRun [Profile] (L : Layout) : List BoxEvent → BoxState → Prop
  | init : BoxRun L [] .init
  | step {es s o t} : BoxRun L es s → BoxStep L s o t → BoxRun L (es ++ o.toList) t

end ShogiCore
