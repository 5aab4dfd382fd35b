import Verif.Spec.Basic

/- Specification of the texts: fixed sequences of chunks, one per `write_str` call,
written down independently of the model's writers. -/

namespace ShogiCore

/-- Writing a sequence of chunks to a sink, stopping at the first failure. -/
def writeAll {W : Type} [Write W] : List (List U8) → W → Res (W × Option Unit)
  | [], w => .ok (w, some ())
  | c :: cs, w =>
    match Write.write_str w c with
    | .ok (w', true) => writeAll cs w'
    | .ok (w', false) => .ok (w', none)
    | .panic => .panic
    | .ub => .ub

/-- Decimal numeral. -/
def decimal (n : Nat) : List U8 :=
  if n < 10 then [BitVec.ofNat 8 (48 + n)]
  else decimal (n / 10) ++ [BitVec.ofNat 8 (48 + n % 10)]

/-- One chunk per byte. -/
def singly (l : List U8) : List (List U8) := l.map fun b => [b]

/-- File digit, then rank letter. -/
def squareText (s : Square) : List U8 :=
  [BitVec.ofNat 8 (49 + (s.val.toNat - 1) / 9), BitVec.ofNat 8 (97 + (s.val.toNat - 1) % 9)]

/-- USI letter(s) of a kind. -/
def kindText : PieceKind → List U8
  | .Pawn => ascii "P" | .Lance => ascii "L" | .Knight => ascii "N" | .Silver => ascii "S"
  | .Gold => ascii "G" | .Bishop => ascii "B" | .Rook => ascii "R" | .King => ascii "K"
  | .ProPawn => ascii "+P" | .ProLance => ascii "+L" | .ProKnight => ascii "+N"
  | .ProSilver => ascii "+S" | .ProBishop => ascii "+B" | .ProRook => ascii "+R"

/-- ASCII lower case of letters, other bytes unchanged. -/
def lower (b : U8) : U8 := if 65 ≤ b.toNat ∧ b.toNat ≤ 90 then b + 32 else b

/-- USI text of a piece: upper case for Black, lower case for White. -/
def pieceText (k : PieceKind) : Color → List U8
  | .Black => kindText k
  | .White => (kindText k).map lower

/-- USI text of a colour. -/
def colorText : Color → List U8
  | .Black => ascii "b"
  | .White => ascii "w"

/-- The kind stored in cell `j` of a hand. -/
def kindOfCell (j : Nat) : PieceKind :=
  ([.Pawn, .Lance, .Knight, .Silver, .Gold, .Bishop, .Rook][j]?).getD .Pawn

/-- A count (omitted when 1) followed by a letter; nothing when the count is 0. -/
def countedText (n : Nat) (letter : List U8) : List U8 :=
  (if 2 ≤ n then decimal n else []) ++ (if n = 0 then [] else letter)

/-- One player's hand: rook, bishop, gold, silver, knight, lance, pawn. -/
def handText (h : Hand) (c : Color) : List U8 :=
  [6, 5, 4, 3, 2, 1, 0].flatMap fun j =>
    countedText (h.cells[j]?.getD 0).toNat (pieceText (kindOfCell j) c)

/-- Both hands: `-` when empty, otherwise Black's then White's. -/
def handsText (b w : Hand) : List U8 :=
  if b = Hand.new ∧ w = Hand.new then ascii "-" else handText b .Black ++ handText w .White

/-- Kind of a piece byte. -/
def kindOfPiece (p : Piece) : PieceKind :=
  (PieceKind.all.find? fun k => p = Piece.mk' k .Black ∨ p = Piece.mk' k .White).getD .Pawn

/-- The chunks written for a move. -/
def moveChunks : Move → List (List U8)
  | .Normal s t pr => singly (squareText s) ++ (singly (squareText t) ++ if pr then [ascii "+"] else [])
  | .Drop p t => [kindText (kindOfPiece p)] ++ ([ascii "*"] ++ singly (squareText t))

end ShogiCore
