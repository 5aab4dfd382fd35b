import Verif.Model.NoStd

/- What is expected of the arena allocator and of the memory functions. -/

namespace ShogiCore

/-- `core::alloc::Layout` guarantees that the alignment is a power of two. -/
def Layout.Valid [Profile] (l : Layout) : Prop := ∃ k, l.align.toNat = 2 ^ k

namespace AllocState
variable [Profile]

/-- Call number `i` has returned the address `base + a`. -/
def Returned (s : AllocState) (i : Nat) (l : Layout) (a : Nat) : Prop :=
  ∃ o : Usize, s.calls[i]? = some ⟨l, .done (some o)⟩ ∧ o.toNat = a

/-- Call number `i` has returned the null pointer. -/
def ReturnedNull (s : AllocState) (i : Nat) (l : Layout) : Prop :=
  s.calls[i]? = some ⟨l, .done none⟩

/-- The byte at offset `x` belongs to the block handed out by call number `i`. -/
def Owns (s : AllocState) (i x : Nat) : Prop :=
  ∃ l a, s.Returned i l a ∧ a ≤ x ∧ x < a + l.size.toNat

end AllocState

/-- Any number of transitions. -/
inductive AllocRun [Profile] : AllocState → AllocState → Prop
  | refl (s) : AllocRun s s
  | trans {s t u} : AllocRun s t → AllocTrans t u → AllocRun s u

/-- Transitions of call number `i` only. -/
inductive AllocSolo [Profile] (i : Nat) : AllocState → AllocState → Prop
  | refl (s) : AllocSolo i s s
  | step {s t : AllocState} (h : i < t.calls.length) (rem : Usize) (pc : AllocPc) :
      AllocSolo i s t → AllocStep t.calls[i].layout (t.remaining, t.calls[i].pc) (rem, pc) →
      AllocSolo i s ⟨rem, t.calls.set i ⟨t.calls[i].layout, pc⟩⟩

/-- `n` bytes at `p` can be accessed. -/
def Mem.Accessible (m : Mem) (p n : Nat) : Prop := ∀ k < n, m (p + k) ≠ none

/-- The two regions of `n` bytes have no byte in common. -/
def NonOverlapping (p q n : Nat) : Prop := ∀ i < n, ∀ j < n, p + i ≠ q + j

end ShogiCore
