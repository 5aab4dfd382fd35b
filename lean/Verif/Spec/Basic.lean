import Verif.Model.Position

/- Validity of the raw representations, as documented on the types (independent of the
functions of the model), and coordinates. -/

namespace ShogiCore

/-- square.rs: "representation is in 1..=81". -/
def Square.Valid (s : Square) : Prop := 1 ≤ s.val.toNat ∧ s.val.toNat ≤ 81

instance (s : Square) : Decidable s.Valid := inferInstanceAs (Decidable (_ ∧ _))

/-- The square in column `f`, row `r` (numbered from 1), column by column. -/
def Square.at (f r : Nat) : Square := ⟨BitVec.ofNat 8 (9 * f + r - 9)⟩

/-- On-board coordinates. -/
def OnBoard (f r : Int) : Prop := 1 ≤ f ∧ f ≤ 9 ∧ 1 ≤ r ∧ r ≤ 9

instance (f r : Int) : Decidable (OnBoard f r) := inferInstanceAs (Decidable (_ ∧ _))

/-- piece.rs: "valid representations are 1..=14 and 17..=30". -/
def Piece.Valid (p : Piece) : Prop :=
  (1 ≤ p.val.toNat ∧ p.val.toNat ≤ 14) ∨ (17 ≤ p.val.toNat ∧ p.val.toNat ≤ 30)

instance (p : Piece) : Decidable p.Valid := inferInstanceAs (Decidable (_ ∨ _))

/-- The piece of a kind and colour, by the documented byte layout. -/
def Piece.mk' (k : PieceKind) (c : Color) : Piece :=
  ⟨match c with
   | .Black => k.toU8
   | .White => k.toU8 + 16⟩

/-- The hidden eighth byte of a hand is zero; every hand produced through the API has this
(`C11`). -/
def Hand.Valid (h : Hand) : Prop := h.cells[7] = 0

instance (h : Hand) : Decidable h.Valid := inferInstanceAs (Decidable (_ = _))

/-- Specification: the promoted kinds and what they are promotions of. -/
inductive PromotesTo : PieceKind → PieceKind → Prop
  | pawn : PromotesTo .Pawn .ProPawn
  | lance : PromotesTo .Lance .ProLance
  | knight : PromotesTo .Knight .ProKnight
  | silver : PromotesTo .Silver .ProSilver
  | bishop : PromotesTo .Bishop .ProBishop
  | rook : PromotesTo .Rook .ProRook

/-- Specification: the unpromoted form of every kind. -/
def PieceKind.base : PieceKind → PieceKind
  | .ProPawn => .Pawn
  | .ProLance => .Lance
  | .ProKnight => .Knight
  | .ProSilver => .Silver
  | .ProBishop => .Bishop
  | .ProRook => .Rook
  | k => k

/-- The opponent. -/
def Color.other : Color → Color
  | .Black => .White
  | .White => .Black

/-- Specification: the kinds that can be in a hand (seven literals, independent of the
representation). -/
def PieceKind.InHand : PieceKind → Prop
  | .Pawn | .Lance | .Knight | .Silver | .Gold | .Bishop | .Rook => True
  | _ => False

instance (k : PieceKind) : Decidable k.InHand := by
  cases k <;> first | exact .isTrue trivial | exact .isFalse id

/-- Validity of moves. -/
def Move.Valid : Move → Prop
  | .Normal s t _ => s.Valid ∧ t.Valid
  | .Drop p t => p.Valid ∧ t.Valid

instance (m : Move) : Decidable m.Valid := by
  cases m <;> exact inferInstanceAs (Decidable (_ ∧ _))

/-- A compact move is valid when it is the documented encoding of a valid move:
promote * 32768 + from * 256 + to, or piece * 256 + 128 + to. -/
def CompactMove.encodes (c : CompactMove) : Move → Prop
  | .Normal s t pr =>
    c.val.toNat = (if pr then 32768 else 0) + s.val.toNat * 256 + t.val.toNat
  | .Drop p t => c.val.toNat = p.val.toNat * 256 + 128 + t.val.toNat

/-- Valid compact moves. -/
def CompactMove.Valid (c : CompactMove) : Prop := ∃ m : Move, m.Valid ∧ c.encodes m

end ShogiCore
