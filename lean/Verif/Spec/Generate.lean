import Verif.Spec.Decode
import Verif.Model.Legality

/- What implementors of `LegalityChecker` promise about their methods, and client programs that
generate moves with those methods and the crate's functions. -/

namespace ShogiCore
variable [Profile]

/-- What the comments of the trait ask of the methods on `PartialPosition` (legality.rs:71-120), with
`is_legal_partial_lite` as the measure. -/
structure LegalityChecker.Documented (L : LegalityChecker) : Prop where
  /-- it answers -/
  total : ∀ p m, ApiReach p → m.Valid → ∃ b, L.is_legal_partial_lite p m = .ok b
  /-- "If `is_legal_partial_lite` returns `true`, `position.make_move(mv)` must succeed" -/
  succeeds : ∀ p m, ApiReach p → m.Valid → L.is_legal_partial_lite p m = .ok true →
    ∃ q, p.make_move m = .ok (q, some ())
  /-- "Finds all legal moves in the given position." -/
  all : ∀ p, ApiReach p → ∃ l, L.all_legal_moves_partial p = .ok l ∧ l.Nodup ∧
    ∀ m, m ∈ l ↔ m.Valid ∧ L.is_legal_partial_lite p m = .ok true
  /-- "a `Bitboard` consisting of all destination squares" -/
  sources : ∀ p s, ApiReach p → s.Valid → ∃ B, L.normal_from_candidates p s = .ok B ∧ B.Canonical ∧
    ∀ t : Square, t.Valid → (B.Mem t ↔ ∃ promote, L.is_legal_partial_lite p (.Normal s t promote) = .ok true)
  /-- "all legal normal moves … that move `piece` from some square to `to` … all source squares" -/
  targets : ∀ p t x, ApiReach p → t.Valid → x.Valid → ∃ B, L.normal_to_candidates p t x = .ok B ∧ B.Canonical ∧
    ∀ s : Square, s.Valid → (B.Mem s ↔ p.piece_at s = .ok (some x) ∧
      ∃ promote, L.is_legal_partial_lite p (.Normal s t promote) = .ok true)
  /-- "all legal drop moves … that drop `piece` … all destination squares" -/
  drops : ∀ p x, ApiReach p → x.Valid → ∃ B, L.drop_candidates p x = .ok B ∧ B.Canonical ∧
    ∀ t : Square, t.Valid → (B.Mem t ↔ L.is_legal_partial_lite p (.Drop x t) = .ok true)

/-- `for s in b`. -/
def Bitboard.visit (b : Bitboard) : Res (List Square) := do
  match ← b.iterate 82 with
  | some l => return l
  | none => .panic

omit [Profile] in
/-- A loop that collects what its body finds. -/
def gather {α β : Type} (l : List α) (f : α → Res (List β)) : Res (List β) := do
  return (← l.mapM f).flatten

namespace LegalityChecker
variable (L : LegalityChecker)

omit [Profile] in
/-- `if checker.is_legal_partial_lite(p, m) { moves.push(m) }`. -/
def keep (p : PartialPosition) (m : Move) : Res (List Move) := do
  return if ← L.is_legal_partial_lite p m then [m] else []

/-- A client that goes through its own pieces and asks where they can go, then through the kinds in
hand and asks where they can be dropped. -/
def generateFrom (p : PartialPosition) : Res (List Move) := do
  let mine ← (← p.player_bitboard p.side_to_move).visit
  let normal ← gather mine fun s => do
    gather (← (← L.normal_from_candidates p s).visit) fun t =>
      gather [false, true] fun promote => L.keep p (.Normal s t promote)
  let drops ← gather (← Hand.all_hand_pieces) fun k => do
    let x ← Piece.new k p.side_to_move
    gather (← (← L.drop_candidates p x).visit) fun t => .ok [.Drop x t]
  return normal ++ drops

/-- A client that goes through the squares and asks what can get there. -/
def generateTo (p : PartialPosition) : Res (List Move) := do
  gather (← Square.all) fun t => do
    let normal ← gather PieceKind.all fun k => do
      let x ← Piece.new k p.side_to_move
      gather (← (← L.normal_to_candidates p t x).visit) fun s =>
        gather [false, true] fun promote => L.keep p (.Normal s t promote)
    let drops ← gather (← Hand.all_hand_pieces) fun k => do
      L.keep p (.Drop (← Piece.new k p.side_to_move) t)
    return normal ++ drops

/-- A client that counts the games of `n` legal moves. -/
def perft : Nat → PartialPosition → Res Nat
  | 0, _ => .ok 1
  | n + 1, p => do
    let counts ← (← L.generateFrom p).mapM fun m => do
      let (q, _) ← p.make_move m
      perft n q
    return counts.sum

/-- Legal moves played one after another. -/
inductive Line : PartialPosition → List Move → PartialPosition → Prop
  | nil {p} : Line p [] p
  | cons {p m q l r} : m.Valid → L.is_legal_partial_lite p m = .ok true → p.make_move m = .ok (q, some ()) →
      Line q l r → Line p (m :: l) r

/-- The squares that pass a test: `for s in Square::all() { if test(s) { b |= s } }`. -/
def select (test : Square → Res Bool) : Res Bitboard := do
  (← Square.all).foldlM (fun b s => do if ← test s then b.bitor_assign_sq s else return b) Bitboard.empty

/-- A checker made from a predicate by trying everything: what an implementor that does not care for
speed may write. -/
def ofPredicate (legal : PartialPosition → Move → Res Bool) : LegalityChecker where
  status _ := .ok .InProgress
  status_partial _ := .ok .InProgress
  is_legal_partial p m := do return if ← legal p m then .ok () else .error .IncorrectMove
  is_legal_partial_lite := legal
  all_legal_moves_partial p := do
    let normal ← gather (← Square.all) fun s => do
      gather (← Square.all) fun t => gather [false, true] fun promote => do
        return if ← legal p (.Normal s t promote) then [.Normal s t promote] else []
    let drops ← gather (← Piece.all).toList fun x => do
      gather (← Square.all) fun t => do return if ← legal p (.Drop x t) then [.Drop x t] else []
    return normal ++ drops
  normal_from_candidates p s := select fun t => do
    return (← legal p (.Normal s t false)) || (← legal p (.Normal s t true))
  normal_to_candidates p t x := select fun s => do
    return decide ((← p.piece_at s) = some x) &&
      ((← legal p (.Normal s t false)) || (← legal p (.Normal s t true)))
  drop_candidates p x := select fun t => legal p (.Drop x t)

end LegalityChecker
end ShogiCore
