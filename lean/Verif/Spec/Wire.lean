import Verif.Spec.Edit
import Verif.Spec.Record
import Verif.Spec.Sfen
import Verif.Spec.Usi

/- Two programs that exchange a game in one line of text, `position sfen … moves …`, as in the
USI protocol.  The sender uses the crate's writers; the receiver parses the line with the
independent parsers and rebuilds the game by calls of the crate.  These programs are clients, not
part of the crate. -/

namespace ShogiCore

variable [Profile]

/-- All results, if there are all. -/
def eachOk {α : Type} : List (Res α) → Res (List α)
  | [] => .ok []
  | r :: rs => do return (← r) :: (← eachOk rs)

/-- Words separated by single spaces. -/
def spaced : List (List U8) → List U8
  | [] => []
  | [w] => w
  | w :: ws => w ++ asciiByte ' ' :: spaced ws

/-- The sender. -/
def Position.send (Q : Position) : Res (List U8) := do
  let sfen ← Q.initial_position.to_sfen_owned
  let moves ← eachOk (Q.get_moves.map fun m => to_usi_owned m.to_usi)
  return spaced ([ascii "position", ascii "sfen", sfen] ++
    if moves = [] then [] else ascii "moves" :: moves)

/-- `n` calls of `added`; `none` if the kind is refused. -/
def Hand.addTimes (h : Hand) (k : PieceKind) : Nat → Res (Option Hand)
  | 0 => .ok (some h)
  | n + 1 => do
    match ← h.added k with
    | none => return none
    | some h' => h'.addTimes k n

/-- The hand of `c` described by the entries, added to `h`. -/
def Hand.addItems (c : Color) : Hand → List HandItem → Res (Option Hand)
  | h, [] => .ok (some h)
  | h, (n, k, d) :: items =>
    if d = c then do
      match ← h.addTimes k n with
      | none => return none
      | some h' => Hand.addItems c h' items
    else Hand.addItems c h items

/-- Every square of the board. -/
def boardSquares : List Square :=
  [1, 2, 3, 4, 5, 6, 7, 8, 9].flatMap fun r => [9, 8, 7, 6, 5, 4, 3, 2, 1].map fun f => Square.at f r

/-- What the SFEN shows on a square. -/
def Sfen.on (S : Sfen) (s : Square) : Option Piece :=
  (S.cell ((s.val.toNat - 1) / 9 + 1) ((s.val.toNat - 1) % 9 + 1)).piece

/-- The position described by an SFEN: an empty board, one `piece_set` per square, then the
hands, the side to move and the move number. -/
def Sfen.setUp (S : Sfen) : Res (Option PartialPosition) := do
  match ← Hand.addItems .Black Hand.new S.hands, ← Hand.addItems .White Hand.new S.hands with
  | some b, some w =>
    if S.ply < 65536 then
      let p ← runEdits PartialPosition.empty (boardSquares.map (fun s => .piece s (S.on s)) ++
        [.hand .Black b, .hand .White w, .side S.side, .ply (BitVec.ofNat 16 S.ply)])
      return some p
    else return none
  | _, _ => return none

/-- The move meant by a text when it is `c`'s turn. -/
def UsiMove.toMove (c : Color) : UsiMove → Move
  | .normal s t pr => .Normal s t pr
  | .drop k t => .Drop (Piece.mk' k c) t

/-- Playing the moves; `none` at the first one that is refused. -/
def Position.playAll : Position → List UsiMove → Res (Option Position)
  | Q, [] => .ok (some Q)
  | Q, u :: us => do
    let (Q, r) ← Q.make_move (u.toMove Q.side_to_move)
    match r with
    | some () => Q.playAll us
    | none => return none

/-- The two parts of the line. -/
def parseLine (line : List U8) : Option (Sfen × List UsiMove) :=
  match fields (asciiByte ' ') line with
  | a :: b :: w1 :: w2 :: w3 :: w4 :: rest =>
    if a = ascii "position" ∧ b = ascii "sfen" then
      match parseSfen (spaced [w1, w2, w3, w4]) with
      | none => none
      | some S =>
        match rest with
        | [] => some (S, [])
        | m :: ms => if m = ascii "moves" then (parseEach parseUsi ms).map (S, ·) else none
    else none
  | _ => none

/-- The receiver. -/
def Position.receive (line : List U8) : Res (Option Position) := do
  match parseLine line with
  | none => return none
  | some (S, us) =>
    match ← S.setUp with
    | none => return none
    | some p => (Position.arbitrary_position p).playAll us

end ShogiCore
