import Verif.Model.Heap
import Verif.Spec.Alloc

/- Programs that use the arena, and what they expect to find in their blocks. -/

namespace ShogiCore

variable [Profile]

/-- The owner of block `i` stores `v` at offset `x`. -/
structure Store where
  block : Nat
  offset : Nat
  value : U8
  deriving DecidableEq, Repr

/-- What programs that respect ownership can do with the arena: any interleaving of allocator
steps and of stores by owners into their blocks.  The list is the stores made, oldest first. -/
inductive HeapRun : Heap → List Store → Heap → Prop
  | refl (h) : HeapRun h [] h
  | alloc {h h' : Heap} {tr} {t : AllocState} : HeapRun h tr h' → AllocTrans h'.state t →
      HeapRun h tr ⟨t, h'.arena⟩
  | store {h h' : Heap} {tr} (w : Store) : HeapRun h tr h' → h'.state.Owns w.block w.offset →
      HeapRun h (tr ++ [w]) ⟨h'.state, fun x => if x = w.offset then w.value else h'.arena x⟩

/-- The value last stored by the owner of block `i` at offset `x`. -/
def lastStore (tr : List Store) (i x : Nat) : Option U8 :=
  ((tr.filter fun w => w.block = i ∧ w.offset = x).getLast?).map Store.value

/-- The bytes asked for by one call, if it was granted. -/
def AllocThread.granted (t : AllocThread) : Nat :=
  match t.pc with
  | .done (some _) => t.layout.size.toNat
  | _ => 0

/-- The bytes granted so far. -/
def AllocState.granted (s : AllocState) : Nat := (s.calls.map AllocThread.granted).sum

end ShogiCore
