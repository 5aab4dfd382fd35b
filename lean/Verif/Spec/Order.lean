import Verif.Model.PartialOrd
import Verif.Spec.Position

/- What comparisons are supposed to be. -/

namespace ShogiCore

/-- What sorting and ordered collections need of a comparison.  Totality is the fact that
there are only three results; with `swap` this also gives reflexivity and antisymmetry. -/
structure TotalOrder {α : Type} (cmp : α → α → Ordering) : Prop where
  swap : ∀ a b, cmp b a = (cmp a b).swap
  trans : ∀ a b c, cmp a b ≠ .gt → cmp b c ≠ .gt → cmp a c ≠ .gt

/-- `cmp` says `Equal` exactly for `==` values. -/
def Consistent {α : Type} (cmp : α → α → Ordering) (eq : α → α → Bool) : Prop :=
  ∀ a b, cmp a b = .eq ↔ eq a b = true

/-- `partial_cmp` and the operators it provides go by `cmp`. -/
structure OperatorsGoBy {α : Type} (pcmp : α → α → Option Ordering) (cmp : α → α → Ordering) : Prop where
  partial_cmp : ∀ a b, pcmp a b = some (cmp a b)
  lt : ∀ a b, ltOp pcmp a b = true ↔ cmp a b = .lt
  le : ∀ a b, leOp pcmp a b = true ↔ cmp a b ≠ .gt
  gt : ∀ a b, gtOp pcmp a b = true ↔ cmp a b = .gt
  ge : ∀ a b, geOp pcmp a b = true ↔ cmp a b ≠ .lt

/-- Two positions look the same to a client. -/
structure SameView [Profile] (p q : PartialPosition) : Prop where
  board : ∀ s : Square, s.Valid → p.piece_at s = q.piece_at s
  hands : ∀ c : Color, ∀ k : PieceKind, p.hand (Piece.mk' k c) = q.hand (Piece.mk' k c)
  side : p.side_to_move = q.side_to_move
  ply : p.get_ply = q.get_ply
  last : p.get_last_move = q.get_last_move

/-- What a caller can do to a `Game` / `PartialGame`: set (`some`) or unset (`none`) the
resolution.  The resolution that results is the last one written. -/
def lastWritten (ops : List (Option GameResolution)) : Option GameResolution :=
  ops.getLast?.join

end ShogiCore
