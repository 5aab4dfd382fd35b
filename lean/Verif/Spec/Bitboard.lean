import Verif.Spec.Basic

/- Validity of bitboards, and what a bitboard denotes. -/

namespace ShogiCore

/-- bitboard.rs:11: "Valid representation: self.0[0] >> 63 and self.0[1] >> 18 must be
equal to 0". -/
def Bitboard.Canonical (b : Bitboard) : Prop := b.w0.toNat < 2 ^ 63 ∧ b.w1.toNat < 2 ^ 18

instance (b : Bitboard) : Decidable b.Canonical := inferInstanceAs (Decidable (_ ∧ _))

/-- The set of squares of a bitboard, as seen through the public API. -/
def Bitboard.Mem [Profile] (s : Square) (b : Bitboard) : Prop := b.contains s = .ok true

end ShogiCore
