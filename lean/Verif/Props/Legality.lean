import Verif.Model.Legality
import Verif.Props.Game

/- C42, C43: legality checkers. -/

set_option linter.unusedSectionVars false

namespace ShogiCore
open PartialPosition

variable [P : Profile]

/-! ### C42 -/

/-- C42: once the game is over (or the position invalid) nothing is legal and nothing happens,
whatever the required methods say. -/
theorem C42_finished (L : LegalityChecker) (Q : Position) (m : Move) (st : PositionStatus)
    (h : L.status Q = .ok st) (hs : st ≠ .InProgress) :
    L.is_legal Q m = .ok (.error .GameFinished) ∧ L.is_legal_lite Q m = .ok false ∧
    L.all_legal_moves Q = .ok [] ∧ L.make_move Q m = .ok (Q, .error .GameFinished) := by
  have e : L.is_legal Q m = .ok (.error .GameFinished) := by
    simp only [LegalityChecker.is_legal, h, Res.bind_ok, hs, ne_eq, not_false_eq_true, if_true,
      Res.pure_eq]
  refine ⟨e, ?_, ?_, ?_⟩
  · simp only [LegalityChecker.is_legal_lite, h, Res.bind_ok, hs, ne_eq, not_false_eq_true, if_true,
      Res.pure_eq]
  · simp only [LegalityChecker.all_legal_moves, h, Res.bind_ok, hs, ne_eq, not_false_eq_true, if_true,
      Res.pure_eq]
  · simp only [LegalityChecker.make_move, e, Res.bind_ok, Res.pure_eq]

/-- C42: while the game is in progress the provided methods are the partial ones on the inner
position. -/
theorem C42_in_progress (L : LegalityChecker) (Q : Position) (m : Move)
    (h : L.status Q = .ok .InProgress) :
    L.is_legal Q m = L.is_legal_partial Q.get_inner m ∧
    L.is_legal_lite Q m = L.is_legal_partial_lite Q.get_inner m ∧
    L.all_legal_moves Q = L.all_legal_moves_partial Q.get_inner := by
  simp [LegalityChecker.is_legal, LegalityChecker.is_legal_lite, LegalityChecker.all_legal_moves, h]

/-- C42: the position is looked at only through its inner position and its status: a move
list that is inconsistent with the inner position is not noticed. -/
theorem C42_only_inner (L : LegalityChecker) (Q R : Position) (m : Move)
    (hi : Q.get_inner = R.get_inner) (hs : L.status Q = L.status R) :
    L.is_legal Q m = L.is_legal R m ∧ L.is_legal_lite Q m = L.is_legal_lite R m ∧
    L.all_legal_moves Q = L.all_legal_moves R := by
  simp only [LegalityChecker.is_legal, LegalityChecker.is_legal_lite, LegalityChecker.all_legal_moves,
    hi, hs, and_self]

/-! ### C43 -/

/-- legality.rs:48 "If `is_legal` returns `Ok(())`, `position.make_move(mv)` must succeed." -/
def LegalityChecker.Honest (L : LegalityChecker) : Prop :=
  ∀ (Q : Position) (m : Move), ApiReach Q.get_inner → m.Valid → L.is_legal Q m = .ok (.ok ()) →
    ∃ R, Q.make_move m = .ok (R, some ())

/-- C43: the checked `make_move` returns `Ok` iff the move is legal, and then plays it. -/
theorem C43_make_move (L : LegalityChecker) (hL : L.Honest) (Q : Position)
    (hQ : ApiReach Q.get_inner) (m : Move) (hm : m.Valid) :
    (L.is_legal Q m = .ok (.ok ()) ↔ ∃ R, L.make_move Q m = .ok (R, .ok ())) ∧
    (∀ R, L.make_move Q m = .ok (R, .ok ()) → Q.make_move m = .ok (R, some ()) ∧
      R.get_moves = Q.get_moves ++ [m] ∧ R.initial_position = Q.initial_position) ∧
    (∀ e, L.is_legal Q m = .ok (.error e) → L.make_move Q m = .ok (Q, .error e)) ∧
    (∀ R e, L.make_move Q m = .ok (R, .error e) → R = Q ∧ L.is_legal Q m = .ok (.error e)) := by
  cases h : L.is_legal Q m with
  | panic => simp [LegalityChecker.make_move, h]
  | ub => simp [LegalityChecker.make_move, h]
  | ok v =>
    cases v with
    | error e =>
      simp only [LegalityChecker.make_move, h, Res.bind_ok, Res.pure_eq]
      refine ⟨by simp, by simp, ?_, ?_⟩
      · intro e' he; cases he; rfl
      · intro R e' he; cases he; exact ⟨rfl, rfl⟩
    | ok u =>
      obtain ⟨R, hR⟩ := hL Q m hQ hm h
      have e1 : L.make_move Q m = .ok (R, .ok ()) := by
        simp [LegalityChecker.make_move, h, hR, debug_assert]
      rw [e1]
      refine ⟨⟨fun _ => ⟨R, rfl⟩, fun _ => rfl⟩, ?_, ?_, ?_⟩
      · intro R' he
        cases he
        refine ⟨hR, ?_⟩
        rw [position_make_move] at hR
        cases hi : Q.inner.make_move m with
        | ok x =>
          obtain ⟨q, r⟩ := x
          rw [hi] at hR
          cases r with
          | none => cases hR
          | some _ => cases hR; exact ⟨rfl, rfl⟩
        | panic => rw [hi] at hR; cases hR
        | ub => rw [hi] at hR; cases hR
      · intro e he; cases he
      · intro R' e he; cases he

/-- Positions built from `arbitrary_position(p)` by the checked `make_move` only. -/
inductive LegalityChecker.Checked (L : LegalityChecker) (p : PartialPosition) : Position → Prop
  | start : L.Checked p (Position.arbitrary_position p)
  | step {Q R m v} : L.Checked p Q → m.Valid → L.make_move Q m = .ok (R, v) → L.Checked p R

/-- C43: in a position built only by the checked `make_move`, every recorded move was legal in
the position in which it was played, and the position is what playing them gives. -/
theorem C43_all_legal (L : LegalityChecker) (hL : L.Honest) (p : PartialPosition) (hp : ApiReach p)
    (Q : Position) (h : L.Checked p Q) :
    Position.From p Q.get_moves Q ∧
    ∀ i (hi : i < Q.get_moves.length), ∃ R, L.Checked p R ∧ R.get_moves = Q.get_moves.take i ∧
      L.status R = .ok .InProgress ∧ L.is_legal R Q.get_moves[i] = .ok (.ok ()) := by
  induction h with
  | start => exact ⟨.start, fun i hi => absurd hi (Nat.not_lt_zero i)⟩
  | @step Q R m v hQ hm e ih =>
    obtain ⟨ih1, ih2⟩ := ih
    have hr : ApiReach Q.get_inner := (C33_replay p hp _ Q ih1).2.2.2.2
    obtain ⟨h1, h2, h3, h4⟩ := C43_make_move L hL Q hr m hm
    cases v with
    | error e' =>
      obtain ⟨rfl, _⟩ := h4 R e' e
      exact ⟨ih1, ih2⟩
    | ok u =>
      obtain ⟨g1, g2, g3⟩ := h2 R e
      have leg := h1.2 ⟨R, e⟩
      refine ⟨?_, ?_⟩
      · rw [g2]
        exact Position.From.make_move ih1 hm g1
      · intro i hi
        by_cases hlt : i < Q.get_moves.length
        · obtain ⟨R', a, b, c, d⟩ := ih2 i hlt
          refine ⟨R', a, ?_, c, ?_⟩
          · rw [b, g2, List.take_append_of_le_length (by omega)]
          · simp only [g2]
            rw [List.getElem_append_left hlt]; exact d
        · have : i = Q.get_moves.length := by
            rw [g2, List.length_append, List.length_singleton] at hi; omega
          subst this
          refine ⟨Q, hQ, ?_, ?_, ?_⟩
          · rw [g2, List.take_append_of_le_length (Nat.le_refl _), List.take_length]
          · simp only [LegalityChecker.is_legal] at leg
            cases hst : L.status Q with
            | ok st =>
              rw [hst] at leg
              simp only [Res.bind_ok] at leg
              by_cases hne : st = .InProgress
              · rw [hne]
              · simp only [ne_eq, hne, not_false_eq_true, if_true, Res.pure_eq] at leg
                cases leg
            | panic => rw [hst] at leg; cases leg
            | ub => rw [hst] at leg; cases leg
          · simp only [g2]
            rw [List.getElem_append_right (Nat.le_refl _)]
            simpa using leg

/-- A checker that calls every move legal. -/
def permissive : LegalityChecker where
  status _ := .ok .InProgress
  status_partial _ := .ok .InProgress
  is_legal_partial _ _ := .ok (.ok ())
  is_legal_partial_lite _ _ := .ok true
  all_legal_moves_partial _ := .ok []
  normal_from_candidates _ _ := .ok Bitboard.empty
  normal_to_candidates _ _ _ := .ok Bitboard.empty
  drop_candidates _ _ := .ok Bitboard.empty

/-- C43 needs the contract (finding): if the implementor calls a move legal that the position
rejects, the checked `make_move` panics in debug builds and in release builds returns `Ok`
without playing anything. -/
theorem C43_contract_needed : ∃ (L : LegalityChecker) (Q : Position) (m : Move),
    ApiReach Q.get_inner ∧ m.Valid ∧
    L.make_move Q m = if Profile.debug then .panic else .ok (Q, .ok ()) := by
  refine ⟨permissive, Position.arbitrary_position .empty,
    .Normal (Square.at 5 5) (Square.at 5 4) false, .empty, by decide, ?_⟩
  have e : (Position.arbitrary_position .empty).make_move
      (.Normal (Square.at 5 5) (Square.at 5 4) false) =
      .ok (Position.arbitrary_position .empty, none) := by
    rw [position_make_move]
    rcases make_move_ok empty_ok (m := .Normal (Square.at 5 5) (Square.at 5 4) false) (by decide) with
      ⟨⟨k, h, _⟩, _⟩ | ⟨_, e⟩
    · rw [cell_empty] at h; cases h
    · rw [show (Position.arbitrary_position .empty).inner = PartialPosition.empty from rfl, e]; rfl
  have e2 : permissive.is_legal (Position.arbitrary_position .empty)
      (.Normal (Square.at 5 5) (Square.at 5 4) false) = .ok (.ok ()) := by
    simp [permissive, LegalityChecker.is_legal]
  simp only [LegalityChecker.make_move, e2, e, Res.bind_ok, debug_assert]
  cases hd : P.build.debug <;> simp [hd]

/-- The checker that calls legal what the position accepts, until 500 moves are played. -/
def lenient : LegalityChecker where
  status Q := .ok (if Q.get_moves.length < 500 then .InProgress else .Draw)
  status_partial _ := .ok .InProgress
  is_legal_partial p m := do
    let (_, r) ← p.make_move m
    return if r.isSome then .ok () else .error .IncorrectMove
  is_legal_partial_lite p m := do
    let (_, r) ← p.make_move m
    return r.isSome
  all_legal_moves_partial _ := .ok []
  normal_from_candidates _ _ := .ok Bitboard.empty
  normal_to_candidates _ _ _ := .ok Bitboard.empty
  drop_candidates _ _ := .ok Bitboard.empty

theorem lenient_honest : lenient.Honest := by
  intro Q m _ hm h
  simp only [LegalityChecker.is_legal, lenient, Res.bind_ok] at h
  by_cases hl : Q.get_moves.length < 500
  · simp only [hl, if_true, ne_eq, not_true_eq_false, if_false, Position.get_inner] at h
    rw [position_make_move]
    cases hi : Q.inner.make_move m with
    | ok x =>
      obtain ⟨q, r⟩ := x
      rw [hi] at h
      cases r with
      | none => cases h
      | some u => exact ⟨_, rfl⟩
    | panic => rw [hi] at h; cases h
    | ub => rw [hi] at h; cases h
  · simp [hl] at h

theorem lenient_one (p : PartialPosition) (hp : ApiReach p) (m : Move) (hm : m.Valid)
    (h : ∃ q, p.make_move m = .ok (q, some ())) : ∃ Q, lenient.Checked p Q ∧ Q.get_moves = [m] := by
  obtain ⟨q, e⟩ := h
  have hl : lenient.is_legal (Position.arbitrary_position p) m = .ok (.ok ()) := by
    simp [LegalityChecker.is_legal, lenient, Position.arbitrary_position, Position.get_moves,
      Position.get_inner, e]
  obtain ⟨h1, h2, _⟩ := C43_make_move lenient lenient_honest (Position.arbitrary_position p) hp m hm
  obtain ⟨R, hR⟩ := h1.1 hl
  exact ⟨R, .step .start hm hR, (h2 R hR).2.1⟩

/-- Non-vacuity: an honest checker under which 7g7f can be played from the start. -/
example : lenient.Honest ∧ ∃ p Q, startpos = .ok p ∧ lenient.Checked p Q ∧
    Q.get_moves.length = 1 := by
  refine ⟨lenient_honest, ?_⟩
  have h1 : sp0.cell (Square.at 7 7).idx0 = some (Piece.mk' .Pawn .Black) ∧
    sp0.cell (Square.at 7 6).idx0 = none ∧ sp0.side = .Black := by decide +kernel
  rcases make_move_ok sp0_ok (m := .Normal (Square.at 7 7) (Square.at 7 6) false) (by decide) with
    ⟨_, q, e, _⟩ | ⟨h, _⟩
  · obtain ⟨Q, h2, h3⟩ := lenient_one sp0 (.startpos startpos_ok) _ (by decide) ⟨q, e⟩
    exact ⟨sp0, Q, startpos_ok, h2, by rw [h3]; rfl⟩
  · exact absurd ⟨.Pawn, by rw [h1.2.2]; exact h1.1, .inl h1.2.1, by simp⟩ h

/-- Non-vacuity: a finished game. -/
example : ∃ (L : LegalityChecker) (Q : Position), L.status Q = .ok .Draw ∧
    L.is_legal_partial Q.get_inner (.Normal (Square.at 7 7) (Square.at 7 6) false) = .ok (.ok ()) :=
  ⟨{ permissive with status := fun _ => .ok .Draw }, Position.arbitrary_position .empty, rfl, rfl⟩

end ShogiCore
