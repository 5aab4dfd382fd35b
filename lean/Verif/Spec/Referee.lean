import Verif.Spec.Attack
import Verif.Model.Derive

/- What is wrong with a move, when a game is over, and a client that answers these questions: a complete
implementor of `LegalityChecker`, programmed with functions of the crate.  None of this is in the crate
(legality.rs:27-30). -/

namespace ShogiCore

namespace Shogi

/-- Nothing may be played: the player to move is mated, or could capture a king. -/
def Ended (S : Shogi) : Prop := S.InCheck S.side.other ∨ S.Mated

instance (S : Shogi) : Decidable S.Ended := inferInstanceAs (Decidable (_ ∨ _))

/-- A drop that is in order unless the piece is stuck or there is another pawn on the file. -/
def Droppable (S : Shogi) (k : PieceKind) (f r : Nat) : Prop :=
  Inside f r ∧ k.InHand ∧ S.hand S.side k ≠ 0 ∧ S.board f r = none

/-- What is wrong with a move, in the words of the comments on `IllegalMoveKind`
(illegal_move_kind.rs:10-37).  Where several things are wrong, the first of: the game is over; stuck; two
pawns; the king is attacked; mate by a dropped pawn. -/
def Wrong (S : Shogi) (a : Action) : IllegalMoveKind → Prop
  | .GameFinished => S.Ended
  | .DropStuck => ¬S.Ended ∧ ∃ k f r, a = .drop k S.side f r ∧ S.Droppable k f r ∧ k.Stuck S.side r
  | .TwoPawns => ¬S.Ended ∧ ∃ f r, a = .drop .Pawn S.side f r ∧ S.Droppable .Pawn f r ∧
      ¬PieceKind.Stuck .Pawn S.side r ∧ ∃ r', Inside f r' ∧ S.board f r' = some (.Pawn, S.side)
  | .NormalStuck => ¬S.Ended ∧ ∃ f r f' r' k, a = .move f r f' r' false ∧ Inside f r ∧ Inside f' r' ∧
      S.board f r = some (k, S.side) ∧ (∀ y ∈ S.board f' r', y.2 ≠ S.side) ∧
      S.Reaches k S.side f r f' r' ∧ k.Stuck S.side r'
  | .IgnoredCheck => ¬S.Ended ∧ S.Shaped a ∧ (S.after a).InCheck S.side
  | .DropPawnMate => ¬S.Ended ∧ S.Safe a ∧ ∃ c f r, a = .drop .Pawn c f r ∧ (S.after a).Mated
  | .IncorrectMove => ¬S.Ended ∧ ¬S.Shaped a ∧
      (∀ k f r, a = .drop k S.side f r → ¬S.Droppable k f r) ∧
      ∀ f r f' r' k, a = .move f r f' r' false → Inside f r → Inside f' r' → S.board f r = some (k, S.side) →
        (∀ y ∈ S.board f' r', y.2 ≠ S.side) → ¬S.Reaches k S.side f r f' r'

/-- The same position as far as repetition is concerned. -/
def Same (S T : Shogi) : Prop :=
  (∀ s ∈ squares, S.board s.1 s.2 = T.board s.1 s.2) ∧
  (∀ c ∈ [Color.Black, .White], ∀ k ∈ [PieceKind.Pawn, .Lance, .Knight, .Silver, .Gold, .Bishop, .Rook],
    S.hand c k = T.hand c k) ∧ S.side = T.side

instance (S T : Shogi) : Decidable (S.Same T) := inferInstanceAs (Decidable (_ ∧ _))

/-- The position has occurred three times before. -/
def Fourth (S : Shogi) (past : List Shogi) : Prop := 3 ≤ (past.filter fun T => decide (S.Same T)).length

instance (S : Shogi) (past : List Shogi) : Decidable (S.Fourth past) := inferInstanceAs (Decidable (_ ≤ _))

/-- Games by the rules in which nobody plays on after mate or fourfold repetition: the earlier positions
(latest first), the moves, the position reached. -/
inductive Refereed (S : Shogi) : List Shogi → List Action → Shogi → Prop
  | start : S.Refereed [] [] S
  | next {past l T a U} : S.Refereed past l T → ¬T.Mated → ¬T.Fourth past → T.Legal a → T.step a = some U →
      S.Refereed (T :: past) (l ++ [a]) U

end Shogi

namespace PartialPosition
variable [Profile]

/-- A drop that is not one the piece can make: why? -/
def explain_drop (p : PartialPosition) (x : Piece) (t : Square) : Res IllegalMoveKind := do
  let n ← p.hand x
  let stuck ← x.stuck t
  if decide ((← x.color) = p.side_to_move) && decide (n.getD 0 ≠ 0) && (← p.vacant_bitboard.contains t) then
    return if stuck then .DropStuck else .TwoPawns
  else return .IncorrectMove

/-- Another move that is not one the piece can make: would it be one with promotion? -/
def explain_normal (p : PartialPosition) (s t : Square) (promote : Bool) : Res IllegalMoveKind := do
  if promote then return .IncorrectMove
  else return if ← p.fits (.Normal s t true) then .NormalStuck else .IncorrectMove

/-- … whatever kind of move it is. -/
def explain_misfit (p : PartialPosition) : Move → Res IllegalMoveKind
  | .Normal s t promote => p.explain_normal s t promote
  | .Drop x t => p.explain_drop x t

/-- The status of a position whose history is unknown. -/
def status_alone (p : PartialPosition) : Res PositionStatus := do
  if ← p.in_check (← p.side_to_move.flip) then return .Invalid
  else if ← p.mated then return match p.side_to_move with
    | .Black => .WhiteWins
    | .White => .BlackWins
  else return .InProgress

/-- Is the move legal, and if not, why? -/
def explain (p : PartialPosition) (m : Move) : Res (Except IllegalMoveKind Unit) := do
  if (← p.status_alone) ≠ .InProgress then return .error .GameFinished
  else if ← p.fits m then
    if ← p.safe m then return if ← p.pawn_mate m then .error .DropPawnMate else .ok ()
    else return .error .IgnoredCheck
  else return .error (← p.explain_misfit m)

/-- The status of a position, given the keys of the earlier positions of the game. -/
def status_after (p : PartialPosition) (seen : List (List U8)) : Res PositionStatus := do
  let key ← p.repetitionKey
  match ← p.status_alone with
  | .InProgress => return if 3 ≤ (seen.filter (· == key)).length then .Draw else .InProgress
  | v => return v

/-- Going through the record of a game that has to lead to `last`. -/
def audit (p : PartialPosition) (last : PartialPosition) (seen : List (List U8)) : List Move → Res PositionStatus
  | [] => if p.eq last then p.status_after seen else .ok .Invalid
  | m :: rest => do
    if (← p.status_after seen) ≠ .InProgress then return .Invalid
    else if ← p.legal m then
      let (q, _) ← p.make_move m
      q.audit last ((← p.repetitionKey) :: seen) rest
    else return .Invalid

end PartialPosition

/-- The implementor. -/
def referee [Profile] : LegalityChecker :=
  { LegalityChecker.ofPredicate PartialPosition.legal with
    status := fun Q => Q.initial_position.audit Q.get_inner [] Q.get_moves
    status_partial := PartialPosition.status_alone
    is_legal_partial := PartialPosition.explain }

end ShogiCore
