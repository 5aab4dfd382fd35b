import Verif.Lemmas.Rules
import Verif.Props.Machine
import Verif.Props.Legality
import Verif.Props.Order
import Verif.Props.Reachable

/- C81: games by the rules of shogi. -/

set_option linter.unusedSectionVars false

namespace ShogiCore

open PartialPosition
variable [P : Profile]

private theorem alike_of_shows {p : PartialPosition} {S T : Shogi} (h : p.Shows S) (h' : p.Shows T) :
    S.Alike T := by
  obtain ⟨h1, h2, h3, _⟩ := C53_unique p S T h h'
  exact ⟨fun f r i => h1 f r i.1 i.2, h2, h3⟩

/-- C81: what is legal in a position depends only on what its observers report (so it does not
matter by which abstract state it is shown). -/
theorem C81_well_defined (p : PartialPosition) (S T : Shogi) (h : p.Shows S) (h' : p.Shows T)
    (a : Action) : (S.Legal a ↔ T.Legal a) ∧ (∀ c, S.InCheck c ↔ T.InCheck c) ∧ (S.Mated ↔ T.Mated) := by
  have e := alike_of_shows h h'
  exact ⟨⟨Shogi.legal_alike e, Shogi.legal_alike e.symm⟩,
    fun c => ⟨Shogi.inCheck_alike e, Shogi.inCheck_alike e.symm⟩,
    ⟨Shogi.mated_alike e, Shogi.mated_alike e.symm⟩⟩

/-- C81: of the moves that pieces can make, `make_move` accepts in any position exactly those that do
not capture a king. -/
theorem C81_accepts (p : PartialPosition) (hp : ApiReach p) (S : Shogi) (h : p.Shows S) (m : Move)
    (hm : m.Valid) (ha : S.Shaped m.action) :
    (∃ q, p.make_move m = .ok (q, some ())) ↔ ∀ c, p.piece_at m.to ≠ .ok (some (Piece.mk' .King c)) := by
  rw [← (C28_accept_iff p hp m hm).1, acceptable_step h hm, Shogi.shaped_step ha]
  cases m with
  | Normal s t pr =>
    simp only [Move.to, Move.action, h.at hm.2]
    constructor
    · intro hh c e
      exact hh _ _ _ _ _ rfl c (piece_eq_some (Res.ok.inj e))
    · rintro hh _ _ _ _ _ ⟨⟩ c e
      exact hh c (by rw [e]; rfl)
  | Drop x t =>
    simp only [Move.to, Move.action, h.at hm.2]
    have : S.board t.column t.row = none := ha.2.2.2.2.1
    rw [this]
    constructor
    · intro _ c e; cases e
    · rintro _ _ _ _ _ _ ⟨⟩

/-- C81: a legal move is accepted wherever the player who is not to move is not in check; the new
position shows the new state, in which again the player not to move is not in check. -/
theorem C81_legal (p : PartialPosition) (hp : ApiReach p) (S : Shogi) (h : p.Shows S)
    (hb : ∀ k, k.InHand → S.hand S.side k < 255) (hc : ¬S.InCheck S.side.other) (m : Move)
    (hm : m.Valid) (ha : S.Legal m.action) :
    ∃ q T, p.make_move m = .ok (q, some ()) ∧ S.step m.action = some T ∧ q.Shows T ∧
      ¬T.InCheck T.side.other := by
  have hs := (Shogi.shaped_step ha.1.1).2 (Shogi.shaped_no_capture hc ha.1.1)
  obtain ⟨T, hT⟩ := Option.isSome_iff_exists.1 hs
  obtain ⟨q, v, e, hv, hq⟩ := C53_step p hp S h hb m hm
  rw [hT] at hv hq
  cases v with
  | none => cases hv
  | some u => exact ⟨q, T, e, hT, hq, Shogi.safe_step ha.1 hT⟩

theorem game_hands {q : PartialPosition} (h : GameReach q) {S : Shogi} (hS : q.Shows S) :
    ∀ k, k.InHand → S.hand S.side k < 255 := by
  intro k hk
  rw [← shows_inHand hS _ k hk]
  have := C30_conservation q h k
  have := pieceSupply_le k
  cases S.side <;> omega

private theorem game_of_run {p q : PartialPosition} {l : List Move} {v : List Bool} (hp : GameReach p)
    (hl : ∀ m ∈ l, m.Valid) (h : p.playAll l = .ok (q, v)) : GameReach q := by
  induction l generalizing p v with
  | nil => cases h; exact hp
  | cons b l ih =>
    simp only [playAll] at h
    cases hb : p.make_move b with
    | panic => rw [hb] at h; cases h
    | ub => rw [hb] at h; cases h
    | ok x =>
      obtain ⟨p', w'⟩ := x
      rw [hb] at h
      simp only [Res.bind_ok] at h
      cases hl' : p'.playAll l with
      | panic => rw [hl'] at h; cases h
      | ub => rw [hl'] at h; cases h
      | ok y =>
        obtain ⟨q', v'⟩ := y
        rw [hl'] at h
        cases h
        exact ih (game_trans hp (hl b (by simp)) hb) (fun m hm => hl m (by simp [hm])) hl'

/-- What the observers report in every game by the rules. -/
structure PartialPosition.Orderly (q : PartialPosition) : Prop where
  /-- No two unpromoted pawns of a colour on a file. -/
  pawns : ∀ c f r r', 1 ≤ f ∧ f ≤ 9 → 1 ≤ r ∧ r ≤ 9 → 1 ≤ r' ∧ r' ≤ 9 →
    q.piece_at (Square.at f r) = .ok (some (Piece.mk' .Pawn c)) →
    q.piece_at (Square.at f r') = .ok (some (Piece.mk' .Pawn c)) → r = r'
  /-- No pawn or lance on the last rank, no knight on the last two. -/
  stuck : ∀ k c f r, 1 ≤ f ∧ f ≤ 9 → 1 ≤ r ∧ r ≤ 9 →
    q.piece_at (Square.at f r) = .ok (some (Piece.mk' k c)) → ¬k.Stuck c r
  /-- Each player has one king, and `king_position` knows where. -/
  kings : ∀ c, ∃ s, q.KingAt c s ∧ q.king_position c = .ok (some s)

private theorem orderly_of {q : PartialPosition} {S : Shogi} (hq : GameReach q) (h : q.Shows S)
    (h1 : S.NoTwoPawns) (h2 : S.NoStuck) : q.Orderly := by
  refine ⟨?_, ?_, C31_games q hq⟩
  · intro c f r r' hf hr hr' e e'
    rw [h.board _ _ hf hr] at e
    rw [h.board _ _ hf hr'] at e'
    exact h1 c f r r' ⟨hf, hr⟩ ⟨hf, hr'⟩ (piece_eq_some (Res.ok.inj e)) (piece_eq_some (Res.ok.inj e'))
  · intro k c f r hf hr e
    rw [h.board _ _ hf hr] at e
    exact h2 k c f r ⟨hf, hr⟩ (piece_eq_some (Res.ok.inj e))

/-- C81: in a game by the rules from the starting position every move is accepted, the position at
the end shows the state the rules lead to, the position is orderly, and all legal moves (and of the
moves that pieces can make no fewer) are accepted next. -/
theorem C81_games (l : List Move) (hl : ∀ m ∈ l, m.Valid) (S : Shogi)
    (h : Shogi.start.ByRules (l.map Move.action) S) :
    ∃ p q, startpos = .ok p ∧ p.playAll l = .ok (q, l.map fun _ => true) ∧ q.Shows S ∧ q.Orderly ∧
      ¬S.InCheck S.side.other ∧
      ∀ m : Move, m.Valid → S.Shaped m.action → ∃ r, q.make_move m = .ok (r, some ()) := by
  obtain ⟨p, q, hp, e, hq⟩ := C53_refinement l hl
  rw [Shogi.byRules_run h] at e hq
  obtain ⟨i1, i2, i3⟩ := Shogi.start_invariants
  obtain ⟨j1, j2, j3⟩ := Shogi.byRules_invariants h i1 i2 i3
  have g : GameReach q := game_of_run ⟨p, [], hp, .start⟩ hl e
  refine ⟨p, q, hp, by rw [e, List.map_map]; rfl, hq, orderly_of g hq j1 j2, j3, fun m hm ha => ?_⟩
  rw [← (C28_accept_iff q (game_reach g) m hm).1, acceptable_step hq hm]
  exact (Shogi.shaped_step ha).2 (Shogi.shaped_no_capture j3 ha)

/-- C81: `make_move` does not enforce the rules: from the starting position it accepts a pawn moving
two squares. -/
theorem C81_refuted_enforced : ∃ p q S m, startpos = .ok p ∧ p.Shows S ∧ m.Valid ∧
    p.make_move m = .ok (q, some ()) ∧ ¬S.Shaped m.action := by
  obtain ⟨p, hp, _⟩ := C35_board
  have hS := shows_start hp
  have hm : (Move.Normal (Square.at 7 7) (Square.at 7 5) false).Valid := by decide
  obtain ⟨q, e⟩ := (C28_accept_iff p (.startpos hp) _ hm).1.1 ((acceptable_step hS hm).2 (by decide +kernel))
  exact ⟨p, q, _, _, hp, hS, hm, e, by decide +kernel⟩

/-! ### Legality checkers -/

/-- A checker that calls legal only what the rules allow, and nothing while the player not to move is
in check. -/
def LegalityChecker.Sound (L : LegalityChecker) : Prop :=
  ∀ Q S m, ApiReach Q.get_inner → m.Valid → Q.get_inner.Shows S → L.is_legal Q m = .ok (.ok ()) →
    S.Legal m.action ∧ ¬S.InCheck S.side.other

/-- A checker that calls legal all that the rules allow, except possibly while the player not to move
is in check. -/
def LegalityChecker.Complete (L : LegalityChecker) : Prop :=
  ∀ Q S m, ApiReach Q.get_inner → m.Valid → Q.get_inner.Shows S → S.Legal m.action →
    ¬S.InCheck S.side.other → L.is_legal Q m = .ok (.ok ())

/-- C81: a checker that follows the rules satisfies the contract of legality.rs:48. -/
theorem C81_honest (L : LegalityChecker) (hL : L.Sound) : L.Honest := by
  intro Q m hQ hm hl
  obtain ⟨S, hS⟩ := C53_total Q.get_inner hQ
  obtain ⟨ha, hc⟩ := hL Q S m hQ hm hS hl
  obtain ⟨q, e⟩ := (C28_accept_iff _ hQ m hm).1.1 ((acceptable_step hS hm).2
    ((Shogi.shaped_step ha.1.1).2 (Shogi.shaped_no_capture hc ha.1.1)))
  rw [position_make_move]
  have e : Q.inner.make_move m = .ok (q, some ()) := e
  rw [e]
  exact ⟨_, rfl⟩

/-- C81: a program that only plays through a checker that follows the rules has games by the rules. -/
theorem C81_checked (L : LegalityChecker) (hL : L.Sound) (p : PartialPosition) (hp : startpos = .ok p)
    (Q : Position) (h : L.Checked p Q) :
    ∃ S, Q.get_inner.Shows S ∧ Shogi.start.ByRules (Q.get_moves.map Move.action) S ∧
      Q.get_inner.Orderly := by
  have hr : ApiReach p := .startpos hp
  have hH := C81_honest L hL
  suffices hs : ∃ S, Q.get_inner.Shows S ∧ Shogi.start.ByRules (Q.get_moves.map Move.action) S ∧
      GameReach Q.get_inner by
    obtain ⟨S, h1, h2, h3⟩ := hs
    obtain ⟨i1, i2, i3⟩ := Shogi.start_invariants
    obtain ⟨j1, j2, j3⟩ := Shogi.byRules_invariants h2 i1 i2 i3
    exact ⟨S, h1, h2, orderly_of h3 h1 j1 j2⟩
  induction h with
  | start => exact ⟨_, shows_start hp, .start, ⟨p, [], hp, .start⟩⟩
  | @step Q R m v hQ hm e ih =>
    obtain ⟨S, h1, h2, h3⟩ := ih
    have hr : ApiReach Q.get_inner := game_reach h3
    obtain ⟨c1, c2, _, c4⟩ := C43_make_move L hH Q hr m hm
    cases v with
    | error x => obtain ⟨rfl, _⟩ := c4 R x e; exact ⟨S, h1, h2, h3⟩
    | ok u =>
      obtain ⟨ha, hc⟩ := hL Q S m hr hm h1 (c1.2 ⟨R, e⟩)
      obtain ⟨g1, g2, _⟩ := c2 R e
      obtain ⟨q, T, e', hT, hq, _⟩ := C81_legal _ hr S h1 (game_hands h3 h1) hc m hm ha
      have hR : R.get_inner = q := by
        rw [position_make_move] at g1
        have e' : Q.inner.make_move m = .ok (q, some ()) := e'
        rw [e'] at g1
        cases g1; rfl
      rw [hR, g2, List.map_append]
      exact ⟨T, hq, .next h2 ha hT, game_trans h3 hm e'⟩

/-- C81: with a checker that allows all that the rules allow, every game by the rules can be played. -/
theorem C81_playable (L : LegalityChecker) (hL : L.Sound) (hC : L.Complete) (p : PartialPosition)
    (hp : startpos = .ok p) (l : List Move) (hl : ∀ m ∈ l, m.Valid) (S : Shogi)
    (h : Shogi.start.ByRules (l.map Move.action) S) :
    ∃ Q, L.Checked p Q ∧ Q.get_moves = l ∧ Q.get_inner.Shows S := by
  suffices hs : ∀ k S, Shogi.start.ByRules k S → ∀ l : List Move, k = l.map Move.action → (∀ m ∈ l, m.Valid) →
      ∃ Q, L.Checked p Q ∧ Q.get_moves = l ∧ Q.get_inner.Shows S from hs _ _ h l rfl hl
  intro k S h
  induction h with
  | start =>
    intro l hl _
    have : l = [] := by simpa using hl.symm
    subst this
    exact ⟨_, .start, rfl, shows_start hp⟩
  | @next k T a U h0 ha hU ih =>
    intro l hl hv
    rcases List.eq_nil_or_concat l with rfl | ⟨l', m, rfl⟩
    · simp at hl
    · simp only [List.concat_eq_append, List.map_append, List.map_cons, List.map_nil] at hl hv ⊢
      obtain ⟨e1, e2⟩ := List.append_inj' hl rfl
      simp only [List.cons.injEq, and_true] at e2
      subst e2
      obtain ⟨Q, g1, g2, g3⟩ := ih l' e1 (fun m hm => hv m (by simp [hm]))
      have hm : m.Valid := hv m (by simp)
      have hq : ApiReach Q.get_inner := (C33_replay p (.startpos hp) _ Q (C43_all_legal L (C81_honest L hL) p
        (.startpos hp) Q g1).1).2.2.2.2
      obtain ⟨i1, i2, i3⟩ := Shogi.start_invariants
      have j3 := (Shogi.byRules_invariants h0 i1 i2 i3).2.2
      have leg := hC Q T m hq hm g3 ha j3
      obtain ⟨c1, c2, _, _⟩ := C43_make_move L (C81_honest L hL) Q hq m hm
      obtain ⟨R, hR⟩ := c1.1 leg
      obtain ⟨d1, d2, _⟩ := c2 R hR
      have gr : GameReach Q.get_inner := (position_game ⟨p, [], hp, .start⟩
        (C43_all_legal L (C81_honest L hL) p (.startpos hp) Q g1).1).2
      obtain ⟨q, T', e', hT, hq', _⟩ := C81_legal _ hq T g3 (game_hands gr g3) j3 m hm ha
      rw [hU] at hT; cases hT
      refine ⟨R, .step g1 hm hR, by rw [d2, g2], ?_⟩
      rw [position_make_move] at d1
      have e' : Q.inner.make_move m = .ok (q, some ()) := e'
      rw [e'] at d1
      cases d1
      exact hq'

/-- C81: the contract of legality.rs:48 and the rules of single moves disagree where a king can be
captured: there are positions (Black rook on 5i, White king on 5a, Black to move) in which a move is
legal by the rules and `make_move` rejects it.  So a checker has to report no legal moves there. -/
theorem C81_refuted_contract : ∃ p S m, ApiReach p ∧ p.Shows S ∧ m.Valid ∧ S.Legal m.action ∧
    p.make_move m = .ok (p, none) := by
  let T : Setup := ⟨fun s => if s = Square.at 5 9 then some (Piece.mk' .Rook .Black)
      else if s = Square.at 5 1 then some (Piece.mk' .King .White) else none,
    fun _ => Hand.new, .Black, 1, none, fun c => if c = .White then some (Square.at 5 1) else none⟩
  have hT : T.Possible := by
    refine ⟨?_, fun _ => (show Hand.new.Valid by decide), (by intro m e; cases e), (by intro e; cases e), ?_, ?_, ?_⟩
    · intro s x _ e
      simp only [T] at e
      split at e
      · cases e; decide
      · split at e
        · cases e; decide
        · cases e
    · intro c s e
      simp only [T] at e
      split at e
      · cases e; decide
      · cases e
    · intro c s _ e
      simp only [T] at e ⊢
      split at e
      · exact absurd (Piece.mk'_inj (Option.some.inj e)).1 (by decide)
      · split at e
        · have := (Piece.mk'_inj (Option.some.inj e)).2
          subst this; simp
        · cases e
    · intro s t e; simp [T] at e
  obtain ⟨p, hp, hA⟩ := (C62_exact T).2 hT
  let S : Shogi := ⟨fun f r => if f = 5 ∧ r = 9 then some (.Rook, .Black)
    else if f = 5 ∧ r = 1 then some (.King, .White) else none, fun _ _ => 0, .Black, 1⟩
  have hS : p.Shows S := by
    refine ⟨?_, ?_, hA.side, by rw [hA.ply]; rfl⟩
    · intro f r hf hr
      rw [hA.board _ (at_valid hf hr)]
      congr 1
      simp only [T, S]
      by_cases h1 : f = 5 ∧ r = 9
      · rw [if_pos h1, if_pos (by rw [h1.1, h1.2])]; rfl
      · rw [if_neg h1, if_neg (fun e => h1 (at_inj hf hr (by omega) (by omega) e))]
        by_cases h2 : f = 5 ∧ r = 1
        · rw [if_pos h2, if_pos (by rw [h2.1, h2.2])]; rfl
        · rw [if_neg h2, if_neg (fun e => h2 (at_inj hf hr (by omega) (by omega) e))]; rfl
    · intro c k hk
      refine ⟨0, ?_, rfl⟩
      have e := hA.hands c
      rw [hand_of_a_player_ok] at e
      rw [hand_ok, Res.ok.inj e, Hand.count_ok, dif_pos hk]
      cases k <;> first | exact absurd hk id | rfl
  have hm : (Move.Normal (Square.at 5 9) (Square.at 5 1) false).Valid := by decide
  have hl : S.Legal (Move.Normal (Square.at 5 9) (Square.at 5 1) false).action :=
    ⟨by decide +kernel, by rintro _ _ _ ⟨⟩⟩
  obtain ⟨q, e⟩ := (C28_accept_iff p hp _ hm).2.1 (fun h => by
    have := (acceptable_step hS hm).1 h
    revert this; decide +kernel)
  refine ⟨p, S, _, hp, hS, hm, hl, ?_⟩
  rw [C27_make_move p q hp _ hm e] at e; exact e

/-! ### Such checkers exist -/

open Classical in
/-- The checker that knows the rules. -/
noncomputable def ruleBook : LegalityChecker where
  status _ := .ok .InProgress
  status_partial _ := .ok .InProgress
  is_legal_partial p m := .ok (if ∃ S, p.Shows S ∧ S.Legal m.action ∧ ¬S.InCheck S.side.other then .ok ()
    else .error .IncorrectMove)
  is_legal_partial_lite p m := .ok (decide (∃ S, p.Shows S ∧ S.Legal m.action ∧ ¬S.InCheck S.side.other))
  all_legal_moves_partial _ := .ok []
  normal_from_candidates _ _ := .ok Bitboard.empty
  normal_to_candidates _ _ _ := .ok Bitboard.empty
  drop_candidates _ _ := .ok Bitboard.empty

theorem ruleBook_legal (Q : Position) (S : Shogi) (m : Move) (hS : Q.get_inner.Shows S) :
    ruleBook.is_legal Q m = .ok (.ok ()) ↔ S.Legal m.action ∧ ¬S.InCheck S.side.other := by
  simp only [LegalityChecker.is_legal, ruleBook, Res.bind_ok, ne_eq, not_true_eq_false, if_false,
    Res.ok.injEq]
  have key : (∃ S, Q.get_inner.Shows S ∧ S.Legal m.action ∧ ¬S.InCheck S.side.other) ↔
      S.Legal m.action ∧ ¬S.InCheck S.side.other := by
    constructor
    · rintro ⟨T, hT, h1, h2⟩
      obtain ⟨a, b, _⟩ := C81_well_defined _ T S hT hS m.action
      refine ⟨a.1 h1, fun h => h2 ?_⟩
      rw [(alike_of_shows hT hS).side]; exact (b _).2 h
    · rintro ⟨h1, h2⟩; exact ⟨S, hS, h1, h2⟩
  rw [← key]
  split <;> simp_all

example : ruleBook.Sound ∧ ruleBook.Complete :=
  ⟨fun Q S m _ _ hS h => (ruleBook_legal Q S m hS).1 h,
    fun Q S m _ _ hS h h' => (ruleBook_legal Q S m hS).2 ⟨h, h'⟩⟩

/-! ### Examples -/

set_option maxRecDepth 100000 in
/-- There are thirty safe moves at the start. -/
example : (Shogi.actions.filter fun a => decide (Shogi.start.Safe a)).length = 30 := by decide +kernel

/-- 7g7f, 3c3d, 8h2b+ is a game by the rules, and White is then not in check. -/
example : ∃ S, Shogi.start.ByRules ([Move.Normal (Square.at 7 7) (Square.at 7 6) false,
      .Normal (Square.at 3 3) (Square.at 3 4) false, .Normal (Square.at 8 8) (Square.at 2 2) true].map
        Move.action) S ∧ S.hand .Black .Bishop = 1 ∧ ¬S.InCheck .White := by
  have e : ∀ a b c, [Move.action a, Move.action b, Move.action c] = (([] ++ [a.action]) ++ [b.action]) ++ [c.action] :=
    fun _ _ _ => rfl
  have leg : ∀ (S : Shogi) s t pr, S.Safe (Move.Normal s t pr).action → S.Legal (Move.Normal s t pr).action :=
    fun S s t pr h => ⟨h, by rintro _ _ _ ⟨⟩⟩
  simp only [List.map_cons, List.map_nil, e]
  refine ⟨_, .next (.next (.next .start (leg _ _ _ _ ?_) rfl) (leg _ _ _ _ ?_) rfl) (leg _ _ _ _ ?_) rfl, ?_, ?_⟩
  all_goals decide +kernel

/-- White king in the corner behind its lance, Black gold two squares in front of it. -/
private def corner : Shogi where
  board f r := if f = 1 ∧ r = 1 then some (.King, .White) else if f = 2 ∧ r = 1 then some (.Lance, .White)
    else if f = 1 ∧ r = 3 then some (.Gold, .Black) else none
  hand _ _ := 1
  side := .Black
  ply := 1

set_option maxRecDepth 100000 in
/-- Dropping a pawn in front of it would be mate, so it is not legal, while another check is. -/
example : corner.Safe (.drop .Pawn .Black 1 2) ∧ ¬corner.Legal (.drop .Pawn .Black 1 2) ∧
    corner.Legal (.drop .Gold .Black 1 2) := by
  refine ⟨by decide +kernel, fun h => h.2 _ _ _ rfl ?_, by decide +kernel, by rintro _ _ _ ⟨⟩⟩
  decide +kernel

end ShogiCore
