import Verif.Spec.Basic

/- The documented encoding of optional values at the C interface: 0 is absence, any other number
is the representation of the value itself. -/

namespace ShogiCore

/-- `w` stands for `o`. -/
def OptionSquare.Encodes (w : OptionSquare) : Option Square → Prop
  | none => w.val.toNat = 0
  | some s => w.val.toNat ≠ 0 ∧ w.val = s.val

/-- `w` stands for `o`. -/
def OptionPiece.Encodes (w : OptionPiece) : Option Piece → Prop
  | none => w.val.toNat = 0
  | some p => w.val.toNat ≠ 0 ∧ w.val = p.val

/-- `w` stands for `o`. -/
def OptionPieceKind.Encodes (w : OptionPieceKind) : Option PieceKind → Prop
  | none => w.val.toNat = 0
  | some k => w.val.toNat ≠ 0 ∧ w.val = k.toU8

/-- `w` stands for `o`. -/
def OptionCompactMove.Encodes (w : OptionCompactMove) : Option CompactMove → Prop
  | none => w.val.toNat = 0
  | some c => w.val.toNat ≠ 0 ∧ w.val = c.val

/-- `w` stands for `o`. -/
def OptionGameResolution.Encodes (w : OptionGameResolution) : Option GameResolution → Prop
  | none => w.val.toNat = 0
  | some g => w.val.toNat ≠ 0 ∧ w.val = g.toU8

end ShogiCore
