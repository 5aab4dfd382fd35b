import Verif.Model.Bytes
import Verif.Spec.Recorder
import Verif.Model.Layout

/- What is found in the bytes of a boxed position. -/

namespace ShogiCore

variable [Profile]

/-- The bytes at offset `a`, and those of the buffer they point to, stand for the position `Q`. -/
def StandsFor (C : Compiler) (arena : Nat → U8) (a : Nat) (Q : Position) : Prop :=
  ∃ h, C.fields (bytesAt arena a C.position.size.toNat) = some h ∧
    h.initial = Q.initial ∧ h.inner = Q.inner ∧ h.len = Q.moves.length ∧ h.len ≤ h.cap ∧
    ∀ k (hk : k < Q.moves.length),
      C.moveOf (bytesAt arena (h.ptr + k * C.move.size.toNat) C.move.size.toNat) = some Q.moves[k]

/-- Every value has bytes (as long as its numbers fit into `usize`). -/
structure Compiler.Complete (C : Compiler) : Prop where
  fields : ∀ h : PositionFields, h.ptr < 2 ^ Profile.bits → h.cap < 2 ^ Profile.bits →
    h.len < 2 ^ Profile.bits → ∃ bs, bs.length = C.position.size.toNat ∧ C.fields bs = some h
  moves : ∀ m : Move, m.Valid → ∃ bs, bs.length = C.move.size.toNat ∧ C.moveOf bs = some m

/-- The two `PartialPosition`s in a `Position` have the layout that `#[repr(C)]` prescribes, and an
alignment that that of `Position` respects. -/
structure Compiler.Places [Target] (C : Compiler) : Prop where
  align : C.position.align.toNat % PartialPosition.ty.align = 0
  inner : ∀ bs h, bs.length = C.position.size.toNat → C.fields bs = some h → ∀ (m : Mem) p,
    p % PartialPosition.ty.align = 0 → (∀ k (hk : k < bs.length), m (p + k) = some bs[k]) →
    PartialPosition.load m (p + C.innerOff) = .ok h.inner
  initial : ∀ bs h, bs.length = C.position.size.toNat → C.fields bs = some h → ∀ (m : Mem) p,
    p % PartialPosition.ty.align = 0 → (∀ k (hk : k < bs.length), m (p + k) = some bs[k]) →
    PartialPosition.load m (p + C.initialOff) = .ok h.initial

end ShogiCore
