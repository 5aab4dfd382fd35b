import Verif.Spec.RawCall

/- When a call of the C library may panic, and only in a debug build. -/

namespace ShogiCore

/-- A square with a number above 81 is among the arguments, or the first bit set of the bitboard to
take a square from is the one between the two parts of the board. -/
def CCall.Stray : CCall → Prop
  | .Bitboard_contains _ s | .Bitboard_single s | .Square_file s | .Square_flip s | .Square_index s
  | .Square_rank s | .Square_shift s _ _ | .Square_relative_file s _ | .Square_relative_rank s _
  | .PartialPosition_piece_at _ s | .Position_piece_at _ s | .CompactMove_drop _ s => 81 < s.toNat
  | .CompactMove_normal s t _ => 81 < s.toNat ∨ 81 < t.toNat
  | .Bitboard_pop b => b.FirstBit 63
  | _ => False

end ShogiCore
