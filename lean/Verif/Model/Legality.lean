import Verif.Model.Position

/- Models shogi_core/src/legality.rs. -/

namespace ShogiCore

/-- legality.rs:11-22 `enum PositionStatus`. -/
inductive PositionStatus where
  | BlackWins | WhiteWins | Draw | InProgress | Invalid
  deriving DecidableEq, Repr

/-- legality.rs:13-21: `self as u8`. -/
def PositionStatus.toU8 : PositionStatus → U8
  | .BlackWins => 1 | .WhiteWins => 2 | .Draw => 3 | .InProgress => 4 | .Invalid => 5

/-- legality.rs:31-131 `trait LegalityChecker`: the required methods, as arbitrary
functions (an implementor may return anything, panic, or hit UB; `&self` is folded into
the closure). -/
structure LegalityChecker where
  status : Position → Res PositionStatus
  status_partial : PartialPosition → Res PositionStatus
  is_legal_partial : PartialPosition → Move → Res (Except IllegalMoveKind Unit)
  is_legal_partial_lite : PartialPosition → Move → Res Bool
  all_legal_moves_partial : PartialPosition → Res (List Move)
  normal_from_candidates : PartialPosition → Square → Res Bitboard
  normal_to_candidates : PartialPosition → Square → Piece → Res Bitboard
  drop_candidates : PartialPosition → Piece → Res Bitboard

namespace LegalityChecker

/-- legality.rs:52-57, provided method `is_legal`. -/
def is_legal (self : LegalityChecker) (position : Position) (mv : Move) :
    Res (Except IllegalMoveKind Unit) := do
  if (← self.status position) ≠ .InProgress then return .error .GameFinished
  else self.is_legal_partial position.get_inner mv

/-- legality.rs:64-69, provided method `is_legal_lite`. -/
def is_legal_lite (self : LegalityChecker) (position : Position) (mv : Move) : Res Bool := do
  if (← self.status position) ≠ .InProgress then return false
  else self.is_legal_partial_lite position.get_inner mv

/-- legality.rs:89-94, provided method `all_legal_moves`. -/
def all_legal_moves (self : LegalityChecker) (position : Position) : Res (List Move) := do
  if (← self.status position) ≠ .InProgress then return []
  else self.all_legal_moves_partial position.get_inner

/-- legality.rs:124-130, provided method `make_move` (new value of `*position`, result). -/
def make_move [Profile] (self : LegalityChecker) (position : Position) (mv : Move) :
    Res (Position × Except IllegalMoveKind Unit) := do
  match ← self.is_legal position mv with
  | .error e => return (position, .error e)
  | .ok () =>
    let (position, result) ← position.make_move mv
    debug_assert (.ok (decide (result = some ())))
    return (position, .ok ())

end LegalityChecker
end ShogiCore
