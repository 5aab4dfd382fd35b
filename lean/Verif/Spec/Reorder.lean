import Verif.Spec.Decode

/- The same moves in another order. -/

namespace ShogiCore

/-- The squares whose content a move changes. -/
def Move.touches : Move → List Square
  | .Normal s t _ => [s, t]
  | .Drop _ t => [t]

/-- Square by square the same moves come by in the same order. -/
def SameOrder (l l' : List Move) : Prop :=
  ∀ s : Square, (l.filter fun m => decide (s ∈ m.touches)) =
    (l'.filter fun m => decide (s ∈ m.touches))

end ShogiCore
