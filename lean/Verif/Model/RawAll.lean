import Verif.Model.RawCall

/- Every function of the C library, called with raw numbers and with pointers to structs that hold
any bytes. -/

namespace ShogiCore

/-- The functions of include/shogi_core.h:481-1085 with their arguments.  Allocation and freeing of a
boxed position are in Model/Boxed.lean; here a handle stands for the position. -/
inductive CEntry
  | call (c : CCall)
  | PartialPosition_make_compact_move (self : PartialPosition) (mv : U16)
  | Position_make_compact_move (self : Position) (mv : U16)
  | PartialPosition_to_sfen_c (self : PartialPosition) (mem : Mem) (ptr : Nat)
  | Position_to_sfen_c (self : Position) (mem : Mem) (ptr : Nat)
  | PartialPosition_startpos | Position_startpos | Position_destruct (self : Position)
  | Bitboard_empty | Hand_new
  | Game_position (self : Game) | Game_resolution (self : Game) | Game_unresolve (self : Game)
  | PartialGame_position (self : PartialGame) | PartialGame_resolution (self : PartialGame)
  | PartialGame_unresolve (self : PartialGame)
  | PartialPosition_last_compact_move (self : PartialPosition)
  | PartialPosition_occupied_bitboard (self : PartialPosition)
  | PartialPosition_ply (self : PartialPosition) | PartialPosition_side_to_move (self : PartialPosition)
  | PartialPosition_vacant_bitboard (self : PartialPosition)
  | Position_initial_position (self : Position) | Position_inner (self : Position)
  | Position_last_compact_move (self : Position) | Position_occupied_bitboard (self : Position)
  | Position_ply (self : Position) | Position_side_to_move (self : Position)
  | Position_vacant_bitboard (self : Position)

/-- The name of the function (include/shogi_core.h:481-1085). -/
def CEntry.name : CEntry → String
  | .call c => c.name
  | .PartialPosition_make_compact_move .. => "PartialPosition_make_compact_move"
  | .Position_make_compact_move .. => "Position_make_compact_move"
  | .PartialPosition_to_sfen_c .. => "PartialPosition_to_sfen_c"
  | .Position_to_sfen_c .. => "Position_to_sfen_c"
  | .PartialPosition_startpos => "PartialPosition_startpos"
  | .Position_startpos => "Position_startpos" | .Position_destruct .. => "Position_destruct"
  | .Bitboard_empty => "Bitboard_empty" | .Hand_new => "Hand_new"
  | .Game_position .. => "Game_position" | .Game_resolution .. => "Game_resolution"
  | .Game_unresolve .. => "Game_unresolve" | .PartialGame_position .. => "PartialGame_position"
  | .PartialGame_resolution .. => "PartialGame_resolution"
  | .PartialGame_unresolve .. => "PartialGame_unresolve"
  | .PartialPosition_last_compact_move .. => "PartialPosition_last_compact_move"
  | .PartialPosition_occupied_bitboard .. => "PartialPosition_occupied_bitboard"
  | .PartialPosition_ply .. => "PartialPosition_ply"
  | .PartialPosition_side_to_move .. => "PartialPosition_side_to_move"
  | .PartialPosition_vacant_bitboard .. => "PartialPosition_vacant_bitboard"
  | .Position_initial_position .. => "Position_initial_position"
  | .Position_inner .. => "Position_inner"
  | .Position_last_compact_move .. => "Position_last_compact_move"
  | .Position_occupied_bitboard .. => "Position_occupied_bitboard"
  | .Position_ply .. => "Position_ply" | .Position_side_to_move .. => "Position_side_to_move"
  | .Position_vacant_bitboard .. => "Position_vacant_bitboard"

variable [Profile]

/-- What comes of the call, the answer as numbers as far as it is made of numbers
(include/shogi_core.h:481-1085; the functions are cited where they are defined).  The text functions
answer with nothing, and so do those that hand out a pointer. -/
def CEntry.run : CEntry → Res (List Nat)
  | .call c => c.exec
  | .PartialPosition_make_compact_move p v => do return boolOut (← p.callMove v).2
  | .Position_make_compact_move p v => do return boolOut (← p.callMove v).2
  | .PartialPosition_to_sfen_c p mem ptr => do let _ ← p.to_sfen_c mem ptr; return []
  | .Position_to_sfen_c p mem ptr => do let _ ← p.to_sfen_c mem ptr; return []
  | .PartialPosition_startpos => do let _ ← PartialPosition.startpos; return []
  | .Position_startpos => do let _ ← Position.startpos; return []
  | .Position_destruct _ => .ok []
  | .Bitboard_empty => .ok Bitboard.empty.out
  | .Hand_new => .ok Hand.new.out
  | .Game_position _ | .PartialGame_position _ | .Position_initial_position _ | .Position_inner _ => .ok []
  | .Game_resolution g => .ok [g.Game_resolution.val.toNat]
  | .Game_unresolve g => .ok [g.unresolve.resolution.val.toNat]
  | .PartialGame_resolution g => .ok [g.PartialGame_resolution.val.toNat]
  | .PartialGame_unresolve g => .ok [g.unresolve.resolution.val.toNat]
  | .PartialPosition_last_compact_move p => .ok [p.PartialPosition_last_compact_move.val.toNat]
  | .PartialPosition_occupied_bitboard p => .ok p.occupied_bitboard.out
  | .PartialPosition_ply p => .ok [p.get_ply.toNat]
  | .PartialPosition_side_to_move p => .ok [p.side_to_move.toU8.toNat]
  | .PartialPosition_vacant_bitboard p => .ok p.vacant_bitboard.out
  | .Position_last_compact_move p => .ok [p.Position_last_compact_move.val.toNat]
  | .Position_occupied_bitboard p => .ok p.occupied_bitboard.out
  | .Position_ply p => .ok [p.ply.toNat]
  | .Position_side_to_move p => .ok [p.side_to_move.toU8.toNat]
  | .Position_vacant_bitboard p => .ok p.vacant_bitboard.out

end ShogiCore
