import Verif.Spec.Decode

/- Client programs that keep a score or a hash key of a position up to date while moves are played,
as engines do: what they add up, and what they add when a move is played.  None of this is in the
crate, which leaves it to its users (shogi_core/README.md:73-78). -/

namespace ShogiCore

/-- Something that can be added up and subtracted: scores under addition, keys under exclusive or. -/
structure Ledger (G : Type) where
  add : G → G → G
  zero : G
  neg : G → G
  assoc : ∀ a b c, add (add a b) c = add a (add b c)
  comm : ∀ a b, add a b = add b a
  zero_add : ∀ a, add zero a = a
  neg_add : ∀ a, add (neg a) a = zero

/-- Scores. -/
def Ledger.score : Ledger Int :=
  ⟨(· + ·), 0, (- ·), Int.add_assoc, Int.add_comm, Int.zero_add, Int.add_left_neg⟩

/-- Zobrist keys. -/
def Ledger.key : Ledger (BitVec 64) :=
  ⟨(· ^^^ ·), 0, id, BitVec.xor_assoc, BitVec.xor_comm, fun _ => BitVec.zero_xor, fun _ => BitVec.xor_self⟩

/-- What pieces on squares, pieces in hand (depending on their number) and the turn count. -/
structure Tariff (G : Type) where
  piece : Square → Piece → G
  held : Color → PieceKind → U8 → G
  turn : Color → G

section
variable {G : Type} (A : Ledger G)

/-- The sum of a list. -/
def Ledger.sum (l : List G) : G := l.foldr A.add A.zero

variable (T : Tariff G) [Profile]

/-- A client that adds everything up: `for s in Square::all()`, `piece_at`; `for c in Color::all()`,
`for k in Hand::all_hand_pieces()`, `hand(Piece::new(k, c))`; `side_to_move`. -/
def PartialPosition.evaluate (p : PartialPosition) : Res G := do
  let squares ← Square.all
  let board ← squares.mapM fun s => do
    match ← p.piece_at s with
    | none => return A.zero
    | some x => return T.piece s x
  let kinds ← Hand.all_hand_pieces
  let hands ← (Color.all.flatMap fun c => kinds.map fun k => (c, k)).mapM fun ck => do
    match ← p.hand (← Piece.new ck.2 ck.1) with
    | none => return A.zero
    | some n => return T.held ck.1 ck.2 n
  return A.add (A.add (A.sum board) (A.sum hands)) (T.turn p.side_to_move)

/-- The piece that arrives, according to the client. -/
def Piece.landing (x : Piece) (promote : Bool) : Res Piece :=
  if promote then do return (← x.promote).getD x else .ok x

/-- A client that only looks at what a move changes, before it is played
(`n + 1` and `n - 1` are `wrapping_add` and `wrapping_sub`). -/
def PartialPosition.delta (p : PartialPosition) (m : Move) : Res G := do
  let c := p.side_to_move
  let turn := A.add (A.neg (T.turn c)) (T.turn (← c.flip))
  match m with
  | .Normal s t promote =>
    match ← p.piece_at s with
    | none => return turn
    | some x =>
      let y ← x.landing promote
      let lift := A.add (A.neg (T.piece s x)) (T.piece t y)
      match ← p.piece_at t with
      | none => return A.add lift turn
      | some z =>
        let k ← z.piece_kind
        let k := k.unpromote.getD k
        match ← p.hand (← Piece.new k c) with
        | none => return A.add lift turn
        | some n =>
          return A.add (A.add lift (A.neg (T.piece t z)))
            (A.add (A.add (A.neg (T.held c k n)) (T.held c k (n + 1))) turn)
  | .Drop x t =>
    let k ← x.piece_kind
    match ← p.hand x with
    | none => return turn
    | some n =>
      return A.add (T.piece t x) (A.add (A.add (A.neg (T.held c k n)) (T.held c k (n - 1))) turn)

/-- A client that plays moves and keeps its total up to date, ignoring rejected moves. -/
def PartialPosition.follow (p : PartialPosition) (g : G) : List Move → Res (PartialPosition × G)
  | [] => .ok (p, g)
  | m :: rest => do
    let d ← p.delta A T m
    let (q, v) ← p.make_move m
    if v.isSome then q.follow (A.add g d) rest else q.follow g rest

end
end ShogiCore
