import Verif.Lemmas.Order
import Verif.Props.Game

/- C44-C47: comparison, hashing, equality, game resolutions. -/

set_option linter.unusedSectionVars false

namespace ShogiCore
open PartialPosition

/-! ### C44 -/

/-- C44: every comparison of the crate is a total order. -/
theorem C44_order :
    (TotalOrder Color.cmp ∧ TotalOrder PieceKind.cmp ∧ TotalOrder GameResolution.cmp ∧
      TotalOrder IllegalMoveKind.cmp ∧ TotalOrder PositionStatus.cmp) ∧
    (TotalOrder Square.cmp ∧ TotalOrder OptionSquare.cmp ∧ TotalOrder Piece.cmp ∧
      TotalOrder OptionPiece.cmp) ∧
    (TotalOrder Move.cmp ∧ TotalOrder CompactMove.cmp ∧ TotalOrder OptionCompactMove.cmp ∧
      TotalOrder OptionGameResolution.cmp ∧ TotalOrder ResultUnitIllegalMoveKind.cmp) ∧
    (TotalOrder Hand.cmp ∧ TotalOrder Bitboard.cmp ∧ TotalOrder ByteSwappedBitboard.cmp) ∧
    (TotalOrder PartialPosition.cmp ∧ TotalOrder PartialGame.cmp ∧ TotalOrder Position.cmp ∧
      TotalOrder Game.cmp) :=
  ⟨⟨Color.cmp_order, cmpInt_order.on PieceKind.toU8, cmpInt_order.on GameResolution.toU8,
    cmpInt_order.on IllegalMoveKind.toU8, cmpInt_order.on PositionStatus.toU8⟩,
   ⟨Square.cmp_order, cmpInt_order.on OptionSquare.val, Piece.cmp_order, OptionPiece.cmp_order⟩,
   ⟨Move.cmp_order, cmpInt_order.on CompactMove.val, OptionCompactMove.cmp_order,
    OptionGameResolution.cmp_order, cmpInt_order.on ResultUnitIllegalMoveKind.val⟩,
   ⟨Hand.cmp_order, cmpInt_order.list.on fun a : Bitboard => [a.w0, a.w1],
    cmpInt_order.list.on fun a : ByteSwappedBitboard => [a.w0, a.w1]⟩,
   PartialPosition.cmp_order, PartialGame.cmp_order, Position.cmp_order, Game.cmp_order⟩

/-- C44: reading of `TotalOrder` as the usual laws of `≤` (`cmp ≠ Greater`). -/
theorem C44_laws {α : Type} (cmp : α → α → Ordering) (h : TotalOrder cmp) :
    (∀ a, cmp a a = .eq) ∧ (∀ a b, cmp a b ≠ .gt ∨ cmp b a ≠ .gt) ∧
    (∀ a b, cmp a b ≠ .gt → cmp b a ≠ .gt → cmp a b = .eq) ∧
    (∀ a b c, cmp a b ≠ .gt → cmp b c ≠ .gt → cmp a c ≠ .gt) ∧
    (∀ a b c, cmp a b = .lt → cmp b c = .lt → cmp a c = .lt) ∧
    (∀ a b c, cmp a b = .eq → cmp a c = cmp b c ∧ cmp c a = cmp c b) := by
  refine ⟨h.refl, ?_, ?_, h.trans, ?_, fun a b c e => ⟨h.left e c, h.right e c⟩⟩
  · intro a b; rw [h.swap a b]; cases cmp a b <;> simp [Ordering.swap]
  · intro a b; rw [h.swap a b]; cases cmp a b <;> simp [Ordering.swap]
  · intro a b c h1 h2
    exact h.lt_trans (by rw [h1]; simp) (by rw [h2]; simp) (.inl h1)

/-- C44: every `Ord` except those of the position types says `Equal` exactly when the values
are equal; `Hand` has a hand-written `==`. -/
theorem C44_consistent :
    (Consistent Color.cmp (· == ·) ∧ Consistent PieceKind.cmp (· == ·) ∧
      Consistent GameResolution.cmp (· == ·) ∧ Consistent IllegalMoveKind.cmp (· == ·) ∧
      Consistent PositionStatus.cmp (· == ·)) ∧
    (Consistent Square.cmp (· == ·) ∧ Consistent OptionSquare.cmp (· == ·) ∧
      Consistent Piece.cmp (· == ·) ∧ Consistent OptionPiece.cmp (· == ·)) ∧
    (Consistent Move.cmp (· == ·) ∧ Consistent CompactMove.cmp (· == ·) ∧
      Consistent OptionCompactMove.cmp (· == ·) ∧ Consistent OptionGameResolution.cmp (· == ·) ∧
      Consistent ResultUnitIllegalMoveKind.cmp (· == ·)) ∧
    (Consistent Hand.cmp Hand.eq ∧ Consistent Bitboard.cmp (· == ·) ∧
      Consistent ByteSwappedBitboard.cmp (· == ·)) := by
  refine ⟨⟨?_, ?_, ?_, ?_, ?_⟩, ⟨?_, ?_, ?_, ?_⟩, ⟨?_, ?_, ?_, ?_, ?_⟩, ?_, ?_, ?_⟩ <;>
    intro a b
  · rw [Color.cmp_eq, beq_iff_eq]
  · revert a b; decide +kernel
  · cases a <;> cases b <;> decide
  · cases a <;> cases b <;> decide
  · cases a <;> cases b <;> decide
  · rw [Square.cmp_eq, beq_iff_eq]
  · rw [OptionSquare.cmp, cmpInt_eq, beq_iff_eq]; cases a; cases b; simp
  · rw [Piece.cmp_eq, beq_iff_eq]
  · rw [OptionPiece.cmp_eq, beq_iff_eq]
  · rw [Move.cmp_eq, beq_iff_eq]
  · rw [CompactMove.cmp, cmpInt_eq, beq_iff_eq]; cases a; cases b; simp
  · rw [OptionCompactMove.cmp_eq, beq_iff_eq]
  · rw [OptionGameResolution.cmp_eq, beq_iff_eq]
  · rw [ResultUnitIllegalMoveKind.cmp, cmpInt_eq, beq_iff_eq]; cases a; cases b; simp
  · rw [Hand.cmp_eq, Hand.eq_iff]
  · rw [Bitboard.cmp, cmpList_eq cmpInt_eq, beq_iff_eq]; cases a; cases b; simp
  · rw [ByteSwappedBitboard.cmp, cmpList_eq cmpInt_eq, beq_iff_eq]; cases a; cases b; simp

private theorem goBy {α : Type} {pcmp : α → α → Option Ordering} {cmp : α → α → Ordering}
    (h : ∀ a b, pcmp a b = some (cmp a b)) : OperatorsGoBy pcmp cmp := by
  refine ⟨h, ?_, ?_, ?_, ?_⟩ <;> intro a b <;> simp only [ltOp, leOp, gtOp, geOp, h] <;>
    cases cmp a b <;> simp

private theorem pcmpList_eq {α : Type} {pcmp : α → α → Option Ordering} {cmp : α → α → Ordering}
    (h : ∀ a b, pcmp a b = some (cmp a b)) (l k : List α) : pcmpList pcmp l k = some (cmpList cmp l k) := by
  induction l generalizing k with
  | nil => cases k <;> rfl
  | cons a l ih =>
    cases k with
    | nil => rfl
    | cons b k =>
      simp only [pcmpList, cmpList, h]
      cases cmp a b <;> simp [ih, Ordering.then]

/-- C44: for every type `partial_cmp` is `Some(cmp)`, and `<`, `<=`, `>` and `>=` go by `cmp`. -/
theorem C44_partial_cmp :
    (OperatorsGoBy Color.partial_cmp Color.cmp ∧ OperatorsGoBy PieceKind.partial_cmp PieceKind.cmp ∧
      OperatorsGoBy GameResolution.partial_cmp GameResolution.cmp ∧
      OperatorsGoBy IllegalMoveKind.partial_cmp IllegalMoveKind.cmp ∧
      OperatorsGoBy PositionStatus.partial_cmp PositionStatus.cmp) ∧
    (OperatorsGoBy Square.partial_cmp Square.cmp ∧ OperatorsGoBy OptionSquare.partial_cmp OptionSquare.cmp ∧
      OperatorsGoBy Piece.partial_cmp Piece.cmp ∧ OperatorsGoBy OptionPiece.partial_cmp OptionPiece.cmp) ∧
    (OperatorsGoBy Move.partial_cmp Move.cmp ∧ OperatorsGoBy CompactMove.partial_cmp CompactMove.cmp ∧
      OperatorsGoBy OptionCompactMove.partial_cmp OptionCompactMove.cmp ∧
      OperatorsGoBy OptionGameResolution.partial_cmp OptionGameResolution.cmp ∧
      OperatorsGoBy ResultUnitIllegalMoveKind.partial_cmp ResultUnitIllegalMoveKind.cmp) ∧
    (OperatorsGoBy Hand.partial_cmp Hand.cmp ∧ OperatorsGoBy Bitboard.partial_cmp Bitboard.cmp ∧
      OperatorsGoBy ByteSwappedBitboard.partial_cmp ByteSwappedBitboard.cmp) ∧
    (OperatorsGoBy PartialPosition.partial_cmp PartialPosition.cmp ∧
      OperatorsGoBy PartialGame.partial_cmp PartialGame.cmp ∧
      OperatorsGoBy Position.partial_cmp Position.cmp ∧ OperatorsGoBy Game.partial_cmp Game.cmp) := by
  have li : ∀ {n : Nat} (a b : BitVec n), pcmpInt a b = some (cmpInt a b) := fun _ _ => rfl
  refine ⟨⟨?_, ?_, ?_, ?_, ?_⟩, ⟨?_, ?_, ?_, ?_⟩, ⟨?_, ?_, ?_, ?_, ?_⟩, ⟨?_, ?_, ?_⟩, ⟨?_, ?_, ?_, ?_⟩⟩ <;>
    refine goBy fun a b => ?_
  case refine_15 => exact pcmpList_eq li _ _
  case refine_16 => exact pcmpList_eq li _ _
  case refine_17 => exact pcmpList_eq li _ _
  all_goals rfl

/-- C44: `max` and `min` are one of the two values and bound both (the second and the first if the two
compare equal, as documented in the standard library); `clamp` is the value between the
bounds that is nearest, and panics exactly if the bounds are the wrong way round. -/
theorem C44_max_min {α : Type} (pcmp : α → α → Option Ordering) (cmp : α → α → Ordering) (h : TotalOrder cmp)
    (hp : OperatorsGoBy pcmp cmp) (a b c : α) :
    ((maxOp cmp a b = a ∨ maxOp cmp a b = b) ∧ leOp pcmp a (maxOp cmp a b) = true ∧
      leOp pcmp b (maxOp cmp a b) = true) ∧
    ((minOp cmp a b = a ∨ minOp cmp a b = b) ∧ leOp pcmp (minOp cmp a b) a = true ∧
      leOp pcmp (minOp cmp a b) b = true) ∧
    (cmp a b = .eq → maxOp cmp a b = b ∧ minOp cmp a b = a) ∧
    (clampOp pcmp a b c = .panic ↔ ltOp pcmp c b = true) ∧
    (leOp pcmp b c = true → ∃ r, clampOp pcmp a b c = .ok r ∧ leOp pcmp b r = true ∧ leOp pcmp r c = true ∧
      (leOp pcmp b a = true → leOp pcmp a c = true → r = a) ∧ (ltOp pcmp a b = true → r = b) ∧
      (gtOp pcmp a c = true → r = c)) := by
  have refl : ∀ x, cmp x x ≠ .gt := by
    intro x; have := h.swap x x; cases e : cmp x x <;> simp [e] at this ⊢
  have sw : ∀ x y, (cmp x y = .gt ↔ cmp y x = .lt) := by
    intro x y; have := h.swap x y; cases e : cmp x y <;> simp [e] at this <;> simp [this]
  have sw' : ∀ x y, cmp x y = .lt → cmp y x ≠ .lt := by
    intro x y e; have := h.swap x y; simp [e] at this; simp [this]
  simp only [hp.le, clampOp, hp.gt, hp.lt, Bool.not_eq_eq_eq_not, Bool.not_true]
  refine ⟨?_, ?_, fun e => by simp [maxOp, minOp, e], ?_, ?_⟩
  · unfold maxOp
    cases e : cmp a b <;> simp [e, refl]
    have := (sw a b).1 e; simp [this]
  · unfold minOp
    cases e : cmp a b <;> simp [e, refl]
    have := (sw a b).1 e; simp [this]
  · have : leOp pcmp b c = false ↔ cmp b c = .gt := by
      rw [← Bool.not_eq_true, hp.le]; simp
    rw [← sw b c]
    by_cases g : cmp b c = .gt
    · rw [if_pos (this.2 g)]; simp [g]
    · rw [if_neg (fun e => g (this.1 e))]
      simp only [g, iff_false]
      split
      · simp
      · split <;> simp
  · intro hbc
    have : ¬leOp pcmp b c = false := by rw [Bool.not_eq_false, hp.le]; exact hbc
    rw [if_neg this]
    by_cases g1 : cmp a b = .lt
    · rw [if_pos g1]
      refine ⟨b, rfl, refl b, hbc, fun e => absurd ((sw b a).2 g1) e, fun _ => rfl, fun e => ?_⟩
      have t := h.trans a b c (by simp [g1]) hbc
      exact absurd e t
    · rw [if_neg g1]
      by_cases g2 : cmp a c = .gt
      · rw [if_pos g2]
        exact ⟨c, rfl, hbc, refl c, fun _ e => absurd g2 e, fun e => absurd e g1, fun _ => rfl⟩
      · rw [if_neg g2]
        exact ⟨a, rfl, fun e => g1 ((sw b a).1 e), g2, fun _ _ => rfl, fun e => absurd e g1, fun e => absurd e g2⟩

/-- Two squares compared, and one clamped. -/
example : ltOp Square.partial_cmp (Square.at 1 9) (Square.at 2 1) = true ∧
    maxOp Square.cmp (Square.at 1 9) (Square.at 2 1) = Square.at 2 1 ∧
    clampOp Square.partial_cmp (Square.at 5 5) (Square.at 1 1) (Square.at 2 9) = .ok (Square.at 2 9) ∧
    clampOp Square.partial_cmp (Square.at 5 5) (Square.at 2 9) (Square.at 1 1) = .panic := by decide

variable [P : Profile]

theorem king_inj {a b : OptionSquare} (e : a.toOption = b.toOption) : a = b := by
  cases a with | mk x => cases b with | mk y =>
  by_cases h : x = 0#8 <;> by_cases h' : y = 0#8 <;> simp_all [OptionSquare.toOption]

/-- C44, exactly: on positions obtainable through the API, `==` is `cmp = Equal` together with
equal king caches. -/
theorem C44_positions (p q : PartialPosition) (hp : ApiReach p) (hq : ApiReach q) :
    p.eq q = true ↔ p.cmp q = .eq ∧ ∀ c, p.king_position c = q.king_position c := by
  rw [PartialPosition.eq_iff, PartialPosition.cmp_eq]
  constructor
  · rintro rfl; exact ⟨⟨rfl, rfl, rfl, rfl, rfl⟩, fun _ => rfl⟩
  · rintro ⟨⟨h1, h2, h3, h4, h5⟩, h6⟩
    apply Ok.ext (reach_ok hp) (reach_ok hq) h1 h2 _ _ h5
    · intro c
      have := h6 c
      rw [king_position_ok, king_position_ok] at this
      exact king_inj (Res.ok.inj this)
    · intro c; unfold handOf; simp only [h3]
    · intro i _; unfold cell; rw [h4]

theorem same_king {p q : PartialPosition} (hp : GameReach p) (hq : GameReach q)
    (h : ∀ i < 81, p.cell i = q.cell i) (c : Color) : p.kingOf c = q.kingOf c := by
  have hk : ∀ {p}, GameReach p → p.KingOk c := by
    rintro p ⟨p0, l, h0, h1⟩
    rw [reach_of_startpos h0] at h1
    exact kingOk_from sp0_ok (kingOk_sp0 c) h1
  obtain ⟨s, hs, e, hu⟩ := hk hp
  obtain ⟨s', hs', e', hu'⟩ := hk hq
  have hi := Square.idx0_lt hs
  have := (hu' _ hi).1 (by rw [← h _ hi]; exact (hu _ hi).2 rfl)
  rw [e, e', Square.idx0_inj hs hs' this]

/-- C44: on positions of games, `cmp` is `Equal` exactly when the positions are `==`. -/
theorem C44_games (p q : PartialPosition) (hp : GameReach p) (hq : GameReach q) :
    p.cmp q = .eq ↔ p.eq q = true := by
  rw [C44_positions p q (game_reach hp) (game_reach hq)]
  constructor
  · intro h
    refine ⟨h, fun c => ?_⟩
    rw [king_position_ok, king_position_ok]
    have h4 := ((PartialPosition.cmp_eq p q).1 h).2.2.2.1
    rw [same_king hp hq (fun i _ => by unfold cell; rw [h4]) c]
  · exact fun h => h.1

/-- A `Position` whose initial position is the position of some game, and which has since been
changed by move calls only. -/
def Position.GameReach (Q : Position) : Prop :=
  ∃ p l, ShogiCore.GameReach p ∧ Position.From p l Q

theorem game_trans {p q : PartialPosition} (hp : GameReach p) {m : Move} (hm : m.Valid) {r}
    (e : p.make_move m = .ok (q, r)) : GameReach q := by
  obtain ⟨p0, l, h0, h⟩ := hp
  cases r with
  | none => exact ⟨p0, l, h0, .reject h hm e⟩
  | some u => exact ⟨p0, l ++ [m], h0, .accept h hm e⟩

theorem position_game {p : PartialPosition} (hp : GameReach p) {l Q} (h : Position.From p l Q) :
    Q.initial = p ∧ GameReach Q.inner := by
  have step : ∀ {Q R : Position} {m : Move} {v}, m.Valid → Q.make_move m = .ok (R, v) →
      (Q.initial = p ∧ GameReach Q.inner) → R.initial = p ∧ GameReach R.inner := by
    intro Q R m v hm e ⟨h1, h2⟩
    rw [position_make_move] at e
    cases e' : Q.inner.make_move m with
    | ok x =>
      obtain ⟨q, r⟩ := x
      rw [e'] at e
      have e := Res.ok.inj e
      have e1 := (Prod.mk.inj e).1
      rw [← e1]
      exact ⟨h1, game_trans h2 hm e'⟩
    | panic => rw [e'] at e; cases e
    | ub => rw [e'] at e; cases e
  induction h with
  | start => exact ⟨rfl, hp⟩
  | make_move h hm e ih => exact step hm e ih
  | @make_compact_move l Q R m c v h hm hc e ih =>
    rw [C34_compact_position Q m hm c hc] at e
    cases e' : Q.make_move m with
    | ok x =>
      obtain ⟨R', r⟩ := x
      rw [e'] at e
      have e := Res.ok.inj e
      have e1 := (Prod.mk.inj e).1
      rw [← e1]
      exact step hm e' ih
    | panic => rw [e'] at e; cases e
    | ub => rw [e'] at e; cases e

/-- C44 for `Position`. -/
theorem C44_game_positions (Q R : Position) (hQ : Q.GameReach) (hR : R.GameReach) :
    Q.cmp R = .eq ↔ Q.eq R = true := by
  obtain ⟨p, l, hp, hQ⟩ := hQ
  obtain ⟨p', l', hp', hR⟩ := hR
  obtain ⟨e1, h1⟩ := position_game hp hQ
  obtain ⟨e2, h2⟩ := position_game hp' hR
  rw [Position.cmp_eq, C44_games _ _ h1 h2, C44_games _ _ (e1 ▸ hp) (e2 ▸ hp'), Position.eq]
  rw [Bool.and_eq_true, Bool.and_eq_true,
    eqList_eq (f := fun x y : Move => x == y) (fun _ _ => beq_iff_eq), and_assoc]

/-- C44 for `PartialGame` and `Game`, whose positions the API never changes. -/
theorem C44_game_types :
    (∀ a b : PartialGame, GameReach a.position → GameReach b.position →
      (a.cmp b = .eq ↔ a.eq b = true)) ∧
    (∀ a b : Game, a.position.GameReach → b.position.GameReach →
      (a.cmp b = .eq ↔ a.eq b = true)) := by
  constructor
  · intro a b ha hb
    rw [PartialGame.cmp_eq, C44_games a.inner b.inner ha hb, PartialGame.eq, Bool.and_eq_true, beq_iff_eq]
  · intro a b ha hb
    rw [Game.cmp_eq, C44_game_positions a.inner b.inner ha hb, Game.eq, Bool.and_eq_true, beq_iff_eq]

theorem refuted_aux (p : PartialPosition) (hp : ApiReach p)
    (h1 : p.cell (Square.at 5 5).idx0 = none) (h2 : p.kingOf .Black = .ofOption none) :
    ∃ q, ApiReach q ∧ p.cmp q = .eq ∧ p.eq q = false := by
  have hs : (Square.at 5 5).Valid := by decide
  obtain ⟨q, e, hq⟩ := piece_set_ok (reach_ok hp) hs (o := some (Piece.mk' .King .Black))
    (fun x hx => by cases hx; decide)
  have rq : ApiReach q := .step hp (.piece_set hs (fun x hx => by cases hx; decide) e)
  obtain ⟨r, e', hr⟩ := piece_set_ok (reach_ok rq) hs (o := none) (by simp)
  have rr : ApiReach r := .step rq (.piece_set hs (by simp) e')
  refine ⟨r, rr, ?_, ?_⟩
  · rw [PartialPosition.cmp_eq]
    refine ⟨by rw [hr.side, hq.side], by rw [hr.ply, hq.ply], by rw [hr.hands, hq.hands], ?_,
      by rw [hr.last, hq.last]⟩
    apply Vector.ext; intro i hi
    rw [board_eq hi, board_eq hi, hr.cell i hi]
    split
    · rename_i h; subst h; rw [h1]
    · rename_i h; rw [hq.cell i hi, if_neg h]
  · rw [Bool.eq_false_iff]
    intro h
    have e := (PartialPosition.eq_iff p r).1 h
    have k := hr.king .Black
    rw [← e, h2] at k
    have k' := hq.king .Black
    simp at k k'
    rw [k'] at k
    revert k; decide

/-- C44: for arbitrary API histories consistency fails.  Two positions that compare `Equal`
without being `==`: the empty board, and the empty board after a king has been put on 5e and
removed again. -/
theorem C44_refuted : ∃ p q, ApiReach p ∧ ApiReach q ∧ p.cmp q = .eq ∧ p.eq q = false := by
  obtain ⟨q, h⟩ := refuted_aux PartialPosition.empty .empty (cell_empty _) rfl
  exact ⟨_, q, .empty, h⟩

/-- Non-vacuity: the hypotheses of the game theorems hold for two different positions. -/
example : ∃ p q, GameReach p ∧ GameReach q ∧ p.cmp q ≠ .eq := by
  obtain ⟨q, e⟩ : ∃ q, sp0.make_move (.Normal (Square.at 7 7) (Square.at 7 6) false) = .ok (q, some ()) := by
    rcases make_move_ok sp0_ok (m := .Normal (Square.at 7 7) (Square.at 7 6) false) (by decide) with
      ⟨_, q, e, _⟩ | ⟨h, _⟩
    · exact ⟨q, e⟩
    · refine absurd ?_ h
      have h1 : sp0.cell (Square.at 7 7).idx0 = some (Piece.mk' .Pawn .Black) ∧
        sp0.cell (Square.at 7 6).idx0 = none ∧ sp0.side = .Black := by decide +kernel
      exact ⟨.Pawn, by rw [h1.2.2]; exact h1.1, .inl h1.2.1, by simp⟩
  have g0 : GameReach sp0 := ⟨sp0, [], startpos_ok, .start⟩
  have hm : Move.Valid (.Normal (Square.at 7 7) (Square.at 7 6) false) := by decide
  refine ⟨sp0, q, g0, game_trans g0 hm e, ?_⟩
  intro h
  have h1 := ((PartialPosition.cmp_eq _ _).1 h).1
  rcases make_move_ok sp0_ok hm with ⟨_, q', e', he⟩ | ⟨_, e'⟩ <;> rw [e'] at e
  · have e := (Prod.mk.inj (Res.ok.inj e)).1
    rw [e] at he
    rw [he.side] at h1
    cases h : sp0.side <;> rw [h] at h1 <;> cases h1
  · have e := (Prod.mk.inj (Res.ok.inj e)).2; cases e


/-! ### C45 -/

omit P in
theorem run_congr {S : Type} (step : S → HashOp → S) (s : S) {a b : List HashOp} (h : a = b) :
    runHasher step s a = runHasher step s b := by rw [h]

omit P in
/-- C45: `==` values drive every hasher to the same state (`Hand` has a hand-written `==`,
which the position types use). -/
theorem C45_hash {S : Type} (step : S → HashOp → S) (s : S) :
    (∀ a b : Hand, a.eq b = true → runHasher step s a.hash = runHasher step s b.hash) ∧
    (∀ a b : PartialPosition, a.eq b = true → runHasher step s a.hash = runHasher step s b.hash) ∧
    (∀ a b : PartialGame, a.eq b = true → runHasher step s a.hash = runHasher step s b.hash) ∧
    (∀ a b : Position, a.eq b = true → runHasher step s a.hash = runHasher step s b.hash) ∧
    (∀ a b : Game, a.eq b = true → runHasher step s a.hash = runHasher step s b.hash) := by
  refine ⟨?_, ?_, ?_, ?_, ?_⟩ <;> intro a b h
  · rw [(Hand.eq_iff a b).1 h]
  · rw [(PartialPosition.eq_iff a b).1 h]
  · rw [(PartialGame.eq_iff a b).1 h]
  · rw [(Position.eq_iff a b).1 h]
  · rw [(Game.eq_iff a b).1 h]

omit P in
/-- C45: exactly, the data fed to the hasher are the same if and only if `cmp` is `Equal`; so
`Hash` is as fine as `Ord`, and never finer. -/
theorem C45_exact :
    (∀ a b : Color, a.hash = b.hash ↔ a.cmp b = .eq) ∧
    (∀ a b : PieceKind, a.hash = b.hash ↔ a.cmp b = .eq) ∧
    (∀ a b : GameResolution, a.hash = b.hash ↔ a.cmp b = .eq) ∧
    (∀ a b : IllegalMoveKind, a.hash = b.hash ↔ a.cmp b = .eq) ∧
    (∀ a b : PositionStatus, a.hash = b.hash ↔ a.cmp b = .eq) ∧
    (∀ a b : Square, a.hash = b.hash ↔ a.cmp b = .eq) ∧
    (∀ a b : OptionSquare, a.hash = b.hash ↔ a.cmp b = .eq) ∧
    (∀ a b : Piece, a.hash = b.hash ↔ a.cmp b = .eq) ∧
    (∀ a b : OptionPiece, a.hash = b.hash ↔ a.cmp b = .eq) ∧
    (∀ a b : Move, a.hash = b.hash ↔ a.cmp b = .eq) ∧
    (∀ a b : CompactMove, a.hash = b.hash ↔ a.cmp b = .eq) ∧
    (∀ a b : OptionCompactMove, a.hash = b.hash ↔ a.cmp b = .eq) ∧
    (∀ a b : OptionGameResolution, a.hash = b.hash ↔ a.cmp b = .eq) ∧
    (∀ a b : ResultUnitIllegalMoveKind, a.hash = b.hash ↔ a.cmp b = .eq) ∧
    (∀ a b : Hand, a.hash = b.hash ↔ a.cmp b = .eq) ∧
    (∀ a b : Bitboard, a.hash = b.hash ↔ a.cmp b = .eq) ∧
    (∀ a b : ByteSwappedBitboard, a.hash = b.hash ↔ a.cmp b = .eq) ∧
    (∀ a b : PartialPosition, a.hash = b.hash ↔ a.cmp b = .eq) ∧
    (∀ a b : PartialGame, a.hash = b.hash ↔ a.cmp b = .eq) ∧
    (∀ a b : Position, a.hash = b.hash ↔ a.cmp b = .eq) ∧
    (∀ a b : Game, a.hash = b.hash ↔ a.cmp b = .eq) := by
  obtain ⟨⟨c1, c2, c3, c4, c5⟩, ⟨c6, c7, c8, c9⟩, ⟨c11, c12, c13, c14, c15⟩, c16, c17, c18⟩ :=
    C44_consistent
  have key : ∀ {α : Type} [DecidableEq α] {h : α → List HashOp} {cmp : α → α → Ordering},
      Pf h (· = ·) → Consistent cmp (· == ·) → ∀ a b, h a = h b ↔ cmp a b = .eq := by
    intro α _ h cmp hp hc a b
    rw [hp.iff (fun a b e => by rw [e]), hc a b, beq_iff_eq]
  refine ⟨key Color.hash_pf c1, key PieceKind.hash_pf c2, key GameResolution.hash_pf c3,
    key IllegalMoveKind.hash_pf c4, key PositionStatus.hash_pf c5, key Square.hash_pf c6,
    key OptionSquare.hash_pf c7, key Piece.hash_pf c8, key OptionPiece.hash_pf c9,
    key Move.hash_pf c11, key CompactMove.hash_pf c12,
    key OptionCompactMove.hash_pf c13, key OptionGameResolution.hash_pf c14,
    key ResultUnitIllegalMoveKind.hash_pf c15, ?_, key Bitboard.hash_pf c17,
    key ByteSwappedBitboard.hash_pf c18,
    PartialPosition.hash_pf.iff PartialPosition.hash_of_cmp,
    PartialGame.hash_pf.iff PartialGame.hash_of_cmp,
    Position.hash_pf.iff Position.hash_of_cmp, Game.hash_pf.iff Game.hash_of_cmp⟩
  intro a b
  rw [Hand.hash_pf.iff (fun a b e => by rw [e]), Hand.cmp_eq]

omit P in
/-- C45: hash data are prefix-free, so composite keys (tuples, nested collections) made of
positions collide only if the components do. -/
theorem C45_prefix_free (a b : Position) (r s : List HashOp) (h : a.hash ++ r = b.hash ++ s) :
    a.cmp b = .eq ∧ r = s := Position.hash_pf a b r s h

/-- Non-vacuity: two different `Position`s with different hash data although their positions
coincide; and equal values with equal data. -/
example (p : PartialPosition) (m : Move) :
    Position.hash ⟨p, p, [m]⟩ ≠ Position.hash ⟨p, p, []⟩ ∧
    PartialPosition.hash p = PartialPosition.hash p := by
  refine ⟨fun h => ?_, rfl⟩
  have := (Position.cmp_eq _ _).1 ((C45_exact.2.2.2.2.2.2.2.2.2.2.2.2.2.2.2.2.2.2.2.1 _ _).1 h)
  cases this.2.2

/-! ### C46 -/

omit P in
theorem last_inj {a b : OptionCompactMove} (e : a.toOption = b.toOption) : a = b := by
  cases a with | mk x => cases b with | mk y =>
  by_cases h : x = 0#16 <;> by_cases h' : y = 0#16 <;> simp_all [OptionCompactMove.toOption]

theorem get_last_ok {p : PartialPosition} (hp : p.Ok) :
    (p.last_move.toOption = none ∧ p.get_last_move = .ok none) ∨
    ∃ c m, p.last_move.toOption = some c ∧ m.Valid ∧ c.encodes m ∧ p.get_last_move = .ok (some m) := by
  cases e : p.last_move.toOption with
  | none => left; exact ⟨rfl, by simp [get_last_move, last_compact_move, e]⟩
  | some c =>
    right
    obtain ⟨m, hm, he⟩ := hp.last c e
    exact ⟨c, m, rfl, hm, he, by
      simp [get_last_move, last_compact_move, e, CompactMove.toMove_of_encodes hm he]⟩

theorem same_last {p q : PartialPosition} (hp : p.Ok) (hq : q.Ok)
    (h : p.get_last_move = q.get_last_move) : p.last_move = q.last_move := by
  apply last_inj
  rcases get_last_ok hp with ⟨e, e'⟩ | ⟨c, m, e, _, he, e'⟩ <;>
    rcases get_last_ok hq with ⟨f, f'⟩ | ⟨d, n, f, _, hf, f'⟩ <;> rw [e', f'] at h
  · rw [e, f]
  · cases h
  · cases h
  · cases h; rw [e, f, CompactMove.encodes_inj he hf]

theorem same_hand {p q : PartialPosition} (hp : p.Ok) (hq : q.Ok) (c : Color)
    (h : ∀ k, p.hand (Piece.mk' k c) = q.hand (Piece.mk' k c)) : p.handOf c = q.handOf c := by
  refine Hand.ext_cells (fun k hk => ?_) ((hp.hand c).trans (hq.hand c).symm)
  have := h k
  rw [hand_ok, hand_ok, Hand.count_ok, Hand.count_ok, dif_pos hk, dif_pos hk] at this
  simpa using this

/-- C46 for all positions: `==` is agreement of everything a client can observe. -/
theorem C46_general (p q : PartialPosition) (hp : ApiReach p) (hq : ApiReach q) :
    p.eq q = true ↔ SameView p q ∧ ∀ c, p.king_position c = q.king_position c := by
  have op := reach_ok hp
  have oq := reach_ok hq
  rw [PartialPosition.eq_iff]
  constructor
  · rintro rfl; exact ⟨⟨fun _ _ => rfl, fun _ _ => rfl, rfl, rfl, rfl⟩, fun _ => rfl⟩
  · rintro ⟨h, hk⟩
    refine Ok.ext op oq h.side h.ply (fun c => same_hand op oq c (h.hands c)) ?_
      (same_last op oq h.last) ?_
    · intro i hi
      have := h.board (Square.ofIdx i) (Square.ofIdx_valid hi)
      rw [piece_at_ok p (Square.ofIdx_valid hi), piece_at_ok q (Square.ofIdx_valid hi),
        Square.idx0_ofIdx hi] at this
      exact Res.ok.inj this
    · intro c
      have := hk c
      rw [king_position_ok, king_position_ok] at this
      exact king_inj (Res.ok.inj this)

/-- C46: positions of games are `==` exactly when they agree on the board, the hands, the side
to move, the ply and the last move. -/
theorem C46_games (p q : PartialPosition) (hp : GameReach p) (hq : GameReach q) :
    p.eq q = true ↔ SameView p q := by
  rw [C46_general p q (game_reach hp) (game_reach hq)]
  constructor
  · exact fun h => h.1
  · intro h
    refine ⟨h, fun c => ?_⟩
    rw [king_position_ok, king_position_ok, same_king hp hq ?_ c]
    intro i hi
    have := h.board (Square.ofIdx i) (Square.ofIdx_valid hi)
    rw [piece_at_ok p (Square.ofIdx_valid hi), piece_at_ok q (Square.ofIdx_valid hi),
      Square.idx0_ofIdx hi] at this
    exact Res.ok.inj this

/-- Non-vacuity: the view does not always agree. -/
example (p : PartialPosition) : ¬ SameView p (p.side_to_move_set p.side.other) := by
  intro h
  have := h.side
  simp only [side_to_move, side_to_move_set] at this
  cases e : p.side <;> rw [e] at this <;> cases this

/-! ### C47 -/

/-- A sequence of calls of `resolve` (`some`) and `unresolve` (`none`). -/
def PartialGame.write (g : PartialGame) : Option GameResolution → PartialGame
  | some r => g.resolve r
  | none => g.unresolve

/-- A sequence of calls of `resolve` (`some`) and `unresolve` (`none`). -/
def Game.write (g : Game) : Option GameResolution → Game
  | some r => g.resolve r
  | none => g.unresolve

omit P in
theorem res_roundtrip (o : Option GameResolution) :
    (OptionGameResolution.ofOption o).toOption = .ok o := by
  cases o with
  | none => rfl
  | some r => cases r <;> rfl

omit P in
@[elab_as_elim]
theorem list_rev_ind {α : Type} {motive : List α → Prop} (l : List α) (nil : motive [])
    (concat : ∀ l a, motive l → motive (l ++ [a])) : motive l := by
  rw [← l.reverse_reverse]
  induction l.reverse with
  | nil => exact nil
  | cons a l ih => rw [List.reverse_cons]; exact concat _ _ ih

/-- C47: `PartialGame`. -/
theorem C47_partial_game (ops : List (Option GameResolution)) : ∃ p g,
    PartialPosition.startpos = .ok p ∧ PartialGame.default = .ok g ∧
    (ops.foldl PartialGame.write g).position = p ∧
    (ops.foldl PartialGame.write g).get_resolution = .ok (lastWritten ops) := by
  refine ⟨sp0, ⟨sp0, .default⟩, startpos_ok, by simp only [PartialGame.default, startpos_ok]; rfl, ?_⟩
  have key : ∀ p, (ops.foldl PartialGame.write ⟨p, .default⟩).position = p ∧
      (ops.foldl PartialGame.write ⟨p, .default⟩).get_resolution = .ok (lastWritten ops) := by
    intro p
    induction ops using list_rev_ind with
    | nil => exact ⟨rfl, rfl⟩
    | concat l o ih =>
      rw [List.foldl_append]
      simp only [List.foldl_cons, List.foldl_nil, lastWritten, List.getLast?_append,
        List.getLast?_singleton, Option.some_or, Option.join_some]
      cases o with
      | none => exact ⟨ih.1, res_roundtrip none⟩
      | some r => exact ⟨ih.1, res_roundtrip (some r)⟩
  exact key sp0

/-- C47: `Game`. -/
theorem C47_game (ops : List (Option GameResolution)) : ∃ Q g,
    Position.startpos = .ok Q ∧ Game.default = .ok g ∧
    (ops.foldl Game.write g).position = Q ∧
    (ops.foldl Game.write g).get_resolution = .ok (lastWritten ops) := by
  refine ⟨.arbitrary_position sp0, ⟨.arbitrary_position sp0, .default⟩,
    by simp only [Position.startpos, startpos_ok]; rfl,
    by simp only [Game.default, Position.default, startpos_ok]; rfl, ?_⟩
  have key : ∀ p, (ops.foldl Game.write ⟨p, .default⟩).position = p ∧
      (ops.foldl Game.write ⟨p, .default⟩).get_resolution = .ok (lastWritten ops) := by
    intro p
    induction ops using list_rev_ind with
    | nil => exact ⟨rfl, rfl⟩
    | concat l o ih =>
      rw [List.foldl_append]
      simp only [List.foldl_cons, List.foldl_nil, lastWritten, List.getLast?_append,
        List.getLast?_singleton, Option.some_or, Option.join_some]
      cases o with
      | none => exact ⟨ih.1, res_roundtrip none⟩
      | some r => exact ⟨ih.1, res_roundtrip (some r)⟩
  exact key _

omit P in
/-- C47: resolutions survive the `repr(C)` encoding, and `resolve`/`unresolve` act on any game
in any state in the same way. -/
theorem C47_any_state (g : Game) (r : GameResolution) (h : PartialGame) :
    (g.resolve r).get_resolution = .ok (some r) ∧ g.unresolve.get_resolution = .ok none ∧
    (g.resolve r).position = g.position ∧ g.unresolve.position = g.position ∧
    (h.resolve r).get_resolution = .ok (some r) ∧ h.unresolve.get_resolution = .ok none ∧
    (h.resolve r).position = h.position ∧ h.unresolve.position = h.position :=
  ⟨res_roundtrip (some r), rfl, rfl, rfl, res_roundtrip (some r), rfl, rfl, rfl⟩

/-- Non-vacuity. -/
example : lastWritten [some .Draw, none, some .BlackWins] = some .BlackWins ∧
    lastWritten [some .Draw, none] = none ∧ lastWritten [] = none := by decide

end ShogiCore
