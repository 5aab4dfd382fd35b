import Verif.Model.Prelude

/- Models shogi_core/src/game_resolution.rs and shogi_core/src/illegal_move_kind.rs. -/

namespace ShogiCore

/-- game_resolution.rs:7-28 `enum GameResolution`. -/
inductive GameResolution where
  | BlackWins | WhiteWins | Draw | Rematch | Aborted
  deriving DecidableEq, Repr

namespace GameResolution

/-- game_resolution.rs:11-27: `self as u8`. -/
def toU8 : GameResolution → U8
  | .BlackWins => 1 | .WhiteWins => 2 | .Draw => 3 | .Rematch => 4 | .Aborted => 5

/-- game_resolution.rs:37-39 `GameResolution::from_u8_unchecked` (transmute). -/
def from_u8_unchecked (repr : U8) : Res GameResolution :=
  match repr.toNat with
  | 1 => .ok .BlackWins | 2 => .ok .WhiteWins | 3 => .ok .Draw
  | 4 => .ok .Rematch | 5 => .ok .Aborted
  | _ => .ub

end GameResolution

/-- game_resolution.rs:58 `struct OptionGameResolution(u8)`; `Default` is 0. -/
structure OptionGameResolution where
  val : U8
  deriving DecidableEq, Repr

namespace OptionGameResolution

/-- game_resolution.rs:62-67 `From<Option<GameResolution>>`. -/
def ofOption (arg : Option GameResolution) : OptionGameResolution :=
  ⟨match arg with
   | some result => result.toU8
   | none => 0⟩

/-- game_resolution.rs:72-80 `From<OptionGameResolution> for Option<GameResolution>`. -/
def toOption (arg : OptionGameResolution) : Res (Option GameResolution) :=
  if arg.val = 0 then .ok none
  else do return some (← GameResolution.from_u8_unchecked arg.val)

/-- game_resolution.rs:57 derived `Default`. -/
def default : OptionGameResolution := ⟨0⟩

end OptionGameResolution

/-- illegal_move_kind.rs:9-38 `enum IllegalMoveKind`. -/
inductive IllegalMoveKind where
  | TwoPawns | IgnoredCheck | DropPawnMate | DropStuck | NormalStuck | GameFinished
  | IncorrectMove
  deriving DecidableEq, Repr

namespace IllegalMoveKind

/-- illegal_move_kind.rs:13-37: `self as u8`. -/
def toU8 : IllegalMoveKind → U8
  | .TwoPawns => 1 | .IgnoredCheck => 2 | .DropPawnMate => 3 | .DropStuck => 4
  | .NormalStuck => 5 | .GameFinished => 6 | .IncorrectMove => 7

/-- illegal_move_kind.rs:60-62 `IllegalMoveKind::from_u8_unchecked` (transmute). -/
def from_u8_unchecked (repr : U8) : Res IllegalMoveKind :=
  match repr.toNat with
  | 1 => .ok .TwoPawns | 2 => .ok .IgnoredCheck | 3 => .ok .DropPawnMate
  | 4 => .ok .DropStuck | 5 => .ok .NormalStuck | 6 => .ok .GameFinished
  | 7 => .ok .IncorrectMove
  | _ => .ub

/-- illegal_move_kind.rs:45-52 `IllegalMoveKind::from_u8`. -/
def from_u8 (repr : U8) : Res (Option IllegalMoveKind) :=
  if 1 ≤ repr.toNat ∧ repr.toNat ≤ 7 then do return some (← from_u8_unchecked repr)
  else .ok none

end IllegalMoveKind

/-- illegal_move_kind.rs:81 `struct ResultUnitIllegalMoveKind(u8)`; `Default` is 0. -/
structure ResultUnitIllegalMoveKind where
  val : U8
  deriving DecidableEq, Repr

namespace ResultUnitIllegalMoveKind

/-- illegal_move_kind.rs:85-90 `From<Option<IllegalMoveKind>>`. -/
def ofOption (arg : Option IllegalMoveKind) : ResultUnitIllegalMoveKind :=
  ⟨match arg with
   | some result => result.toU8
   | none => 0⟩

/-- illegal_move_kind.rs:95-103 `From<ResultUnitIllegalMoveKind> for Option<_>`. -/
def toOption (arg : ResultUnitIllegalMoveKind) : Res (Option IllegalMoveKind) :=
  if arg.val = 0 then .ok none
  else do return some (← IllegalMoveKind.from_u8_unchecked arg.val)

/-- illegal_move_kind.rs:108-113 `From<Result<(), IllegalMoveKind>>`. -/
def ofResult (arg : Except IllegalMoveKind Unit) : ResultUnitIllegalMoveKind :=
  ⟨match arg with
   | .error result => result.toU8
   | .ok () => 0⟩

/-- illegal_move_kind.rs:118-126 `From<ResultUnitIllegalMoveKind> for Result<(), _>`. -/
def toResult (arg : ResultUnitIllegalMoveKind) : Res (Except IllegalMoveKind Unit) :=
  if arg.val = 0 then .ok (.ok ())
  else do return .error (← IllegalMoveKind.from_u8_unchecked arg.val)

/-- illegal_move_kind.rs:80 derived `Default`. -/
def default : ResultUnitIllegalMoveKind := ⟨0⟩

end ResultUnitIllegalMoveKind
end ShogiCore
