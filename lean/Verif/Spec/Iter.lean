import Verif.Model.Iter
import Verif.Spec.Bitboard

/- Bitboards seen as iterators. -/

namespace ShogiCore

/-- The list of the members of a bitboard, each once, in ascending order. -/
structure Bitboard.Ascending [Profile] (b : Bitboard) (l : List Square) : Prop where
  canonical : b.Canonical
  mem : ∀ s : Square, s ∈ l ↔ s.Valid ∧ b.Mem s
  order : l.Pairwise fun s t => s.val.toNat < t.val.toNat

/-- Two runs of a consumer, one on a bitboard and one on a list, show the same: the same result
with the same members left over, or both are not finished, or both fail in the same way. -/
inductive SameRun [Profile] {R : Type} : Res (Option (R × Bitboard)) → Res (Option (R × List Square)) → Prop
  | finished (r : R) (b : Bitboard) (l : List Square) (h : b.Ascending l) :
      SameRun (.ok (some (r, b))) (.ok (some (r, l)))
  | unfinished : SameRun (.ok none) (.ok none)
  | panic : SameRun .panic .panic
  | ub : SameRun .ub .ub

end ShogiCore
