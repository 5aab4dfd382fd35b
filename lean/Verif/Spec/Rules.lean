import Verif.Spec.Machine

/- The rules of shogi about single moves, on the abstract machine: how pieces move, promotion,
drops, check.  Nothing here is in the crate, which leaves legality to implementors of
`LegalityChecker`; it is what those implementors implement. -/

namespace ShogiCore

/-- One-step moves of a kind, for Black (who moves towards rank 1): (file, rank) offsets. -/
def PieceKind.steps : PieceKind → List (Int × Int)
  | .Pawn => [(0, -1)]
  | .Lance | .Bishop | .Rook => []
  | .Knight => [(-1, -2), (1, -2)]
  | .Silver => [(-1, -1), (0, -1), (1, -1), (-1, 1), (1, 1)]
  | .Gold | .ProPawn | .ProLance | .ProKnight | .ProSilver =>
    [(-1, -1), (0, -1), (1, -1), (-1, 0), (1, 0), (0, 1)]
  | .King => [(-1, -1), (0, -1), (1, -1), (-1, 0), (1, 0), (-1, 1), (0, 1), (1, 1)]
  | .ProBishop => [(0, -1), (-1, 0), (1, 0), (0, 1)]
  | .ProRook => [(-1, -1), (1, -1), (-1, 1), (1, 1)]

/-- Directions in which a kind moves any distance, for Black. -/
def PieceKind.slides : PieceKind → List (Int × Int)
  | .Lance => [(0, -1)]
  | .Bishop | .ProBishop => [(-1, -1), (1, -1), (-1, 1), (1, 1)]
  | .Rook | .ProRook => [(0, -1), (-1, 0), (1, 0), (0, 1)]
  | _ => []

/-- White's pieces face the other way. -/
def Color.facing : Color → Int
  | .Black => 1
  | .White => -1

/-- The rank as seen by a player: 1 is the far end. -/
def Color.rankOf : Color → Nat → Nat
  | .Black, r => r
  | .White, r => 10 - r

/-- An unpromoted piece that could never move from rank `r`. -/
def PieceKind.Stuck (k : PieceKind) (c : Color) (r : Nat) : Prop :=
  match k with
  | .Pawn | .Lance => c.rankOf r = 1
  | .Knight => c.rankOf r ≤ 2
  | _ => False

instance (k : PieceKind) (c : Color) (r : Nat) : Decidable (k.Stuck c r) := by
  cases k <;> simp only [PieceKind.Stuck] <;> infer_instance

/-- Coordinates on the board. -/
def Inside (f r : Nat) : Prop := (1 ≤ f ∧ f ≤ 9) ∧ (1 ≤ r ∧ r ≤ 9)

instance (f r : Nat) : Decidable (Inside f r) := inferInstanceAs (Decidable (_ ∧ _))

namespace Shogi

/-- Going `n` times in direction `d` of colour `c` from (f, r) leads to (f', r'). -/
def Leads (c : Color) (d : Int × Int) (n : Nat) (f r f' r' : Nat) : Prop :=
  (f' : Int) = f + c.facing * (n * d.1) ∧ (r' : Int) = r + c.facing * (n * d.2)

instance (c d n f r f' r') : Decidable (Leads c d n f r f' r') := inferInstanceAs (Decidable (_ ∧ _))

/-- Is the square `n` steps away empty? -/
def EmptyAt (S : Shogi) (c : Color) (d : Int × Int) (n f r : Nat) : Prop :=
  S.board ((f : Int) + c.facing * (n * d.1)).toNat ((r : Int) + c.facing * (n * d.2)).toNat = none

instance (S : Shogi) (c d n f r) : Decidable (S.EmptyAt c d n f r) := inferInstanceAs (Decidable (_ = _))

/-- A piece of kind `k` and colour `c` on (f, r) can get to (f', r'), whatever is there. -/
def Reaches (S : Shogi) (k : PieceKind) (c : Color) (f r f' r' : Nat) : Prop :=
  (∃ d ∈ k.steps, Leads c d 1 f r f' r') ∨
  (∃ d ∈ k.slides, ∃ n ∈ List.range 8, Leads c d (n + 1) f r f' r' ∧
    ∀ i ∈ List.range n, S.EmptyAt c d (i + 1) f r)

instance (S : Shogi) (k c f r f' r') : Decidable (S.Reaches k c f r f' r') :=
  inferInstanceAs (Decidable (_ ∨ _))

/-- All squares. -/
def squares : List (Nat × Nat) :=
  (List.range 9).flatMap fun f => (List.range 9).map fun r => (f + 1, r + 1)

/-- A piece of colour `c` attacks (f', r'). -/
def Attacked (S : Shogi) (c : Color) (f' r' : Nat) : Prop :=
  ∃ s ∈ squares, ∃ x ∈ S.board s.1 s.2, x.2 = c ∧ S.Reaches x.1 c s.1 s.2 f' r'

instance (S : Shogi) (c f r) : Decidable (S.Attacked c f r) := by
  unfold Attacked; infer_instance

/-- A king of colour `c` is attacked. -/
def InCheck (S : Shogi) (c : Color) : Prop :=
  ∃ s ∈ squares, S.board s.1 s.2 = some (.King, c) ∧ S.Attacked c.other s.1 s.2

instance (S : Shogi) (c) : Decidable (S.InCheck c) := by unfold InCheck; infer_instance

/-- The board after an action, and the turn passed (what is captured does not matter here). -/
def after (S : Shogi) : Action → Shogi
  | .move f r f' r' promote =>
    ((S.put f r none).put f' r' ((S.board f r).map fun x => ((arrival x.1 promote).getD x.1, x.2))).pass
  | .drop k c f r => (S.put f r (some (k, c))).pass

/-- The move is one the piece can make: an own piece goes where it can go, not onto an own piece;
promotion is into, within or out of the far three ranks, and pieces that would be stuck have to
promote; drops are of pieces held, onto empty squares, not stuck, and no second pawn on a file. -/
def Shaped (S : Shogi) : Action → Prop
  | .move f r f' r' promote =>
    Inside f r ∧ Inside f' r' ∧ ∃ x ∈ S.board f r, x.2 = S.side ∧
      (∀ y ∈ S.board f' r', y.2 ≠ S.side) ∧ S.Reaches x.1 x.2 f r f' r' ∧
      (promote = true → (promotedKind x.1).isSome ∧ (S.side.rankOf r ≤ 3 ∨ S.side.rankOf r' ≤ 3)) ∧
      (promote = false → ¬x.1.Stuck S.side r')
  | .drop k c f r =>
    Inside f r ∧ c = S.side ∧ k.InHand ∧ S.hand c k ≠ 0 ∧ S.board f r = none ∧ ¬k.Stuck c r ∧
      (k = .Pawn → ∀ i ∈ List.range 9, S.board f (i + 1) ≠ some (.Pawn, c))

instance (S : Shogi) (a : Action) : Decidable (S.Shaped a) := by
  cases a <;> simp only [Shaped] <;> infer_instance

/-- Such a move that does not leave the own king attacked. -/
def Safe (S : Shogi) (a : Action) : Prop := S.Shaped a ∧ ¬(S.after a).InCheck S.side

instance (S : Shogi) (a : Action) : Decidable (S.Safe a) := inferInstanceAs (Decidable (_ ∧ _))

/-- All actions there are on the board. -/
def actions : List Action :=
  (squares.flatMap fun s => squares.flatMap fun t =>
    [.move s.1 s.2 t.1 t.2 false, .move s.1 s.2 t.1 t.2 true]) ++
  ([.Pawn, .Lance, .Knight, .Silver, .Gold, .Bishop, .Rook].flatMap fun k =>
    [Color.Black, .White].flatMap fun c => squares.map fun s => .drop k c s.1 s.2)

/-- Checkmate. -/
def Mated (S : Shogi) : Prop := S.InCheck S.side ∧ ∀ a ∈ actions, ¬S.Safe a

instance (S : Shogi) : Decidable S.Mated := inferInstanceAs (Decidable (_ ∧ _))

/-- The legal moves: safe, and no mate by dropping a pawn. -/
def Legal (S : Shogi) (a : Action) : Prop :=
  S.Safe a ∧ ∀ c f r, a = .drop .Pawn c f r → ¬(S.after a).Mated

/-- Games by the rules: the moves and the state they lead to. -/
inductive ByRules (S : Shogi) : List Action → Shogi → Prop
  | start : S.ByRules [] S
  | next {l T a U} : S.ByRules l T → T.Legal a → T.step a = some U → S.ByRules (l ++ [a]) U

end Shogi
end ShogiCore
