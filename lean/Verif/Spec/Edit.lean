import Verif.Spec.Setup

/- Programs that set up a position. -/

namespace ShogiCore

/-- One editing call. -/
inductive Edit where
  | piece (s : Square) (o : Option Piece)
  | hand (c : Color) (h : Hand)
  | side (c : Color)
  | ply (n : U16)

/-- Arguments a client can have. -/
def Edit.Valid : Edit → Prop
  | .piece s o => s.Valid ∧ ∀ x, o = some x → x.Valid
  | .hand _ h => h.Valid
  | _ => True

/-- What the call writes to `s`. -/
def Edit.atSquare (s : Square) : Edit → Option (Option Piece)
  | .piece t o => if t = s then some o else none
  | _ => none

/-- What the call writes to the hand of `c`. -/
def Edit.atHand (c : Color) : Edit → Option Hand
  | .hand d h => if d = c then some h else none
  | _ => none

/-- The side to move it sets. -/
def Edit.atSide : Edit → Option Color
  | .side c => some c
  | _ => none

/-- The move number it sets; 0 is refused. -/
def Edit.atPly : Edit → Option U16
  | .ply n => if n = 0 then none else some n
  | _ => none

/-- Where it places a king of `c`. -/
def Edit.kingTo (c : Color) : Edit → Option Square
  | .piece s o => if o = some (Piece.mk' .King c) then some s else none
  | _ => none

/-- The last write of a program, given what single calls write. -/
def lastWrite {α : Type} (f : Edit → Option α) (l : List Edit) : Option α := l.reverse.findSome? f

/-- The answers after a program. -/
def Setup.after (S : Setup) (l : List Edit) : Setup where
  board s := (lastWrite (Edit.atSquare s) l).getD (S.board s)
  hands c := (lastWrite (Edit.atHand c) l).getD (S.hands c)
  side := (lastWrite Edit.atSide l).getD S.side
  ply := (lastWrite Edit.atPly l).getD S.ply
  last := S.last
  king c := (lastWrite (Edit.kingTo c) l).or (S.king c)

variable [Profile]

/-- The call. -/
def Edit.run (p : PartialPosition) : Edit → Res PartialPosition
  | .piece s o => p.piece_set s o
  | .hand c h => p.hand_of_a_player_mut_assign c h
  | .side c => .ok (p.side_to_move_set c)
  | .ply n => .ok (p.ply_set n).1

/-- The calls of a program one after the other. -/
def runEdits (p : PartialPosition) : List Edit → Res PartialPosition
  | [] => .ok p
  | e :: l => do runEdits (← e.run p) l

end ShogiCore
