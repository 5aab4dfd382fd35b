import Verif.Props.Checker
import Verif.Spec.Referee

/- C86: why a move is illegal, and the status of a position. -/

namespace ShogiCore
open PartialPosition Bitboard
variable [P : Profile]
set_option linter.unusedSectionVars false

namespace Shogi
variable {S : Shogi} {a : Action}

omit P in
theorem shaped_drop {k : PieceKind} {f r : Nat} : S.Shaped (.drop k S.side f r) ↔
    S.Droppable k f r ∧ ¬k.Stuck S.side r ∧ (k = .Pawn → ∀ r', Inside f r' → S.board f r' ≠ some (.Pawn, S.side)) := by
  simp only [Shaped, Droppable]
  constructor
  · rintro ⟨i, _, h1, h2, h3, h4, h5⟩
    refine ⟨⟨i, h1, h2, h3⟩, h4, fun hk r' i' => ?_⟩
    have i' := i'.2
    have := h5 hk (r' - 1) (List.mem_range.2 (by omega))
    rwa [show r' - 1 + 1 = r' by omega] at this
  · rintro ⟨⟨i, h1, h2, h3⟩, h4, h5⟩
    exact ⟨i, trivial, h1, h2, h3, h4, fun hk j hj => h5 hk _ ⟨i.1, by have := List.mem_range.1 hj; omega⟩⟩

omit P in
private theorem misfit {e : IllegalMoveKind} (h : S.Wrong a e)
    (he : e = .DropStuck ∨ e = .TwoPawns ∨ e = .NormalStuck ∨ e = .IncorrectMove) : ¬S.Ended ∧ ¬S.Shaped a := by
  rcases he with rfl | rfl | rfl | rfl
  · obtain ⟨h0, k, f, r, rfl, hd, hs⟩ := h
    exact ⟨h0, fun h => (shaped_drop.1 h).2.1 hs⟩
  · obtain ⟨h0, f, r, rfl, hd, hs, r', i, hb⟩ := h
    exact ⟨h0, fun h => (shaped_drop.1 h).2.2 rfl r' i hb⟩
  · obtain ⟨h0, f, r, f', r', k, rfl, i, i', hb, hy, hr, hs⟩ := h
    refine ⟨h0, ?_⟩
    rintro ⟨_, _, x, hx, _, _, _, _, h⟩
    rw [hb] at hx; cases hx
    exact h rfl hs
  · exact ⟨h.1, h.2.1⟩

omit P in
/-- Of the reasons only one applies, … -/
theorem wrong_unique {e e' : IllegalMoveKind} (h : S.Wrong a e) (h' : S.Wrong a e') : e = e' := by
  have ended : ∀ {e e'}, S.Wrong a e → S.Wrong a e' → e = .GameFinished → e' = .GameFinished := by
    intro e e' h h' he
    subst he
    cases e' <;> first | rfl | exact absurd h h'.1
  have fits : ∀ {e e'}, S.Wrong a e → S.Wrong a e' → (e = .IgnoredCheck ∨ e = .DropPawnMate) →
      e' = .IgnoredCheck ∨ e' = .DropPawnMate := by
    intro e e' h h' he
    have hs : ¬S.Ended ∧ S.Shaped a := by
      rcases he with rfl | rfl
      · exact ⟨h.1, h.2.1⟩
      · exact ⟨h.1, h.2.1.1⟩
    cases e'
    case IgnoredCheck => exact .inl rfl
    case DropPawnMate => exact .inr rfl
    case GameFinished => exact absurd h' hs.1
    all_goals exact absurd hs.2 (misfit h' (by simp)).2
  have main : ∀ {e e'}, S.Wrong a e → S.Wrong a e' → e = .IgnoredCheck → e' = .DropPawnMate → False := by
    rintro _ _ h h' rfl rfl
    exact h'.2.1.2 h.2.2
  have stuck : ∀ {e'}, S.Wrong a .DropStuck → S.Wrong a e' → e' ≠ .TwoPawns ∧ e' ≠ .NormalStuck ∧ e' ≠ .IncorrectMove := by
    rintro e' ⟨_, k, f, r, rfl, hd, hs⟩ h'
    refine ⟨?_, ?_, ?_⟩ <;> rintro rfl
    · obtain ⟨_, f', r', e, _, h, _⟩ := h'
      cases e; exact h hs
    · obtain ⟨_, _, _, _, _, _, e, _⟩ := h'
      cases e
    · exact h'.2.2.1 k f r rfl hd
  have two : ∀ {e'}, S.Wrong a .TwoPawns → S.Wrong a e' → e' ≠ .NormalStuck ∧ e' ≠ .IncorrectMove := by
    rintro e' ⟨_, f, r, rfl, hd, hs⟩ h'
    refine ⟨?_, ?_⟩ <;> rintro rfl
    · obtain ⟨_, _, _, _, _, _, e, _⟩ := h'
      cases e
    · exact h'.2.2.1 _ f r rfl hd
  have normal : S.Wrong a .NormalStuck → ¬S.Wrong a .IncorrectMove := by
    rintro ⟨_, f, r, f', r', k, rfl, i, i', hb, hy, hr, hs⟩ h'
    exact h'.2.2.2 f r f' r' k rfl i i' hb hy hr
  cases e <;> cases e' <;> first
    | rfl
    | (have := ended h h' rfl; contradiction)
    | (have := ended h' h rfl; contradiction)
    | (rcases fits h h' (.inl rfl) with e | e <;> contradiction)
    | (rcases fits h h' (.inr rfl) with e | e <;> contradiction)
    | (rcases fits h' h (.inl rfl) with e | e <;> contradiction)
    | (rcases fits h' h (.inr rfl) with e | e <;> contradiction)
    | exact (main h h' rfl rfl).elim
    | exact (main h' h rfl rfl).elim
    | exact absurd rfl (stuck h h').1
    | exact absurd rfl (stuck h h').2.1
    | exact absurd rfl (stuck h h').2.2
    | exact absurd rfl (stuck h' h).1
    | exact absurd rfl (stuck h' h).2.1
    | exact absurd rfl (stuck h' h).2.2
    | exact absurd rfl (two h h').1
    | exact absurd rfl (two h h').2
    | exact absurd rfl (two h' h).1
    | exact absurd rfl (two h' h).2
    | exact absurd h' (normal h)
    | exact absurd h (normal h')

omit P in
/-- … and none to legal moves. -/
theorem wrong_illegal {e : IllegalMoveKind} (h : S.Wrong a e) : ¬(S.Legal a ∧ ¬S.Ended) := by
  rintro ⟨hl, hn⟩
  cases e
  case GameFinished => exact hn h
  case IgnoredCheck => exact hl.1.2 h.2.2
  case DropPawnMate =>
    obtain ⟨_, _, c, f, r, e, hm⟩ := h
    exact hl.2 c f r e hm
  all_goals exact (misfit h (by simp)).2 hl.1.1

end Shogi

/-- C86: the client tells the status of a position as far as the position alone shows it. -/
theorem C86_status_alone (p : PartialPosition) (hp : ApiReach p) (S : Shogi) (hS : p.Shows S) :
    ∃ v, p.status_alone = .ok v ∧ (v = .Invalid ↔ S.InCheck S.side.other) ∧
      (v = .BlackWins ↔ ¬S.InCheck S.side.other ∧ S.Mated ∧ S.side = .White) ∧
      (v = .WhiteWins ↔ ¬S.InCheck S.side.other ∧ S.Mated ∧ S.side = .Black) ∧
      (v = .InProgress ↔ ¬S.Ended) ∧ v ≠ .Draw := by
  obtain ⟨w, ew, hw⟩ := C84_in_check p hp S hS p.side_to_move.other
  rw [hS.side] at hw
  cases w with
  | true =>
    have hw := hw.1 rfl
    exact ⟨.Invalid, by simp [status_alone, ew], by simp [hw], by simp [hw], by simp [hw], by simp [Shogi.Ended, hw], by simp⟩
  | false =>
    have hc : ¬S.InCheck S.side.other := fun h => Bool.false_ne_true (hw.2 h)
    obtain ⟨u, eu, hu⟩ := C85_mated p hp S hS hc
    cases u with
    | false =>
      have hm : ¬S.Mated := fun h => Bool.false_ne_true (hu.2 h)
      exact ⟨.InProgress, by simp [status_alone, ew, eu], by simp [hc], by simp [hm], by simp [hm], by simp [Shogi.Ended, hc, hm], by simp⟩
    | true =>
      have hm := hu.1 rfl
      have hs := hS.side
      cases c : S.side with
      | Black =>
        rw [c] at hs hc
        rw [hs] at ew
        exact ⟨.WhiteWins, by simp [status_alone, ew, eu, hs], by simp [hc], by simp, by simp [hm, hc], by simp [Shogi.Ended, hm], by simp⟩
      | White =>
        rw [c] at hs hc
        rw [hs] at ew
        exact ⟨.BlackWins, by simp [status_alone, ew, eu, hs], by simp [hc], by simp [hm, hc], by simp, by simp [Shogi.Ended, hm], by simp⟩

private theorem explain_drop_ok {p : PartialPosition} {S : Shogi} (hp : ApiReach p) (hS : p.Shows S) (he : ¬S.Ended)
    (k : PieceKind) (c : Color) {t : Square} (ht : t.Valid) (hn : ¬S.Shaped (.drop k c t.column t.row)) :
    ∃ e, p.explain_drop (Piece.mk' k c) t = .ok e ∧ S.Wrong (.drop k c t.column t.row) e := by
  obtain ⟨n, e1, h1⟩ := held_test hS k c
  obtain ⟨st, e2, h2⟩ := stuck_test k c ht
  obtain ⟨v, e3, h3⟩ := contains_test p.vacant_bitboard ht
  rw [is_at (vacant_is hp hS) ht] at h3
  obtain ⟨i1, i2, _⟩ := column_row ht
  simp only [explain_drop, e1, e2, e3, Piece.color_mk', Res.bind_ok]
  by_cases hd : c = S.side ∧ S.Droppable k t.column t.row
  · obtain ⟨rfl, hd⟩ := hd
    have hv := h3.2 hd.2.2.2
    have hh := h1.2 ⟨hd.2.1, hd.2.2.1⟩
    simp only [hS.side, hv, decide_eq_true hh, decide_true, Bool.and_self, if_true]
    cases st with
    | true => exact ⟨.DropStuck, rfl, he, k, _, _, rfl, hd, h2.1 rfl⟩
    | false =>
      have hs : ¬k.Stuck S.side t.row := fun h => Bool.false_ne_true (h2.2 h)
      rw [Shogi.shaped_drop] at hn
      have : ¬(k = .Pawn → ∀ r', Inside t.column r' → S.board t.column r' ≠ some (.Pawn, S.side)) := fun h => hn ⟨hd, hs, h⟩
      refine ⟨.TwoPawns, rfl, ?_⟩
      by_cases hk : k = .Pawn
      · subst hk
        refine ⟨he, _, _, rfl, hd, hs, ?_⟩
        apply Classical.byContradiction
        intro hc
        exact this fun _ r' i e => hc ⟨r', i, e⟩
      · exact absurd (fun h => absurd h hk) this
  · have : (decide (c = p.side_to_move) && decide (n.getD 0 ≠ 0) && v) = false := by
      rw [← Bool.not_eq_true]
      simp only [Bool.and_eq_true, decide_eq_true_eq, hS.side, h1, h3]
      rintro ⟨⟨rfl, a, b⟩, d⟩
      exact hd ⟨rfl, ⟨i1, i2⟩, a, b, d⟩
    simp only [this, Bool.false_eq_true, if_false]
    refine ⟨.IncorrectMove, rfl, he, hn, ?_, ?_⟩
    · intro k' f r e hd'
      cases e
      exact hd ⟨rfl, hd'⟩
    · intro _ _ _ _ _ e
      cases e

omit P in
private theorem stuck_promotes {k : PieceKind} {c : Color} {r : Nat} (h : k.Stuck c r) :
    (promotedKind k).isSome ∧ c.rankOf r ≤ 3 := by
  cases k <;> simp only [PieceKind.Stuck] at h <;> first | exact h.elim | exact ⟨rfl, by omega⟩

private theorem explain_normal_ok {p : PartialPosition} {S : Shogi} (hp : ApiReach p) (hS : p.Shows S) (he : ¬S.Ended)
    {s t : Square} (hs : s.Valid) (ht : t.Valid) (pr : Bool)
    (hn : ¬S.Shaped (.move s.column s.row t.column t.row pr)) :
    ∃ e, p.explain_normal s t pr = .ok e ∧ S.Wrong (.move s.column s.row t.column t.row pr) e := by
  obtain ⟨i1, i2, _⟩ := column_row hs
  obtain ⟨j1, j2, _⟩ := column_row ht
  cases pr with
  | true =>
    refine ⟨.IncorrectMove, rfl, he, hn, ?_, ?_⟩
    · intro _ _ _ e; cases e
    · intro _ _ _ _ _ e; cases e
  | false =>
    obtain ⟨v, e, hv⟩ := C85_fits p hp S hS (.Normal s t true) ⟨hs, ht⟩
    simp only [explain_normal, e, Res.bind_ok, Bool.false_eq_true, if_false]
    cases v with
    | true =>
      refine ⟨.NormalStuck, rfl, he, ?_⟩
      obtain ⟨_, _, ⟨k, c⟩, hx, rfl, hy, hr, h3, _⟩ := hv.1 rfl
      refine ⟨_, _, _, _, k, rfl, ⟨i1, i2⟩, ⟨j1, j2⟩, hx, hy, hr, ?_⟩
      apply Classical.byContradiction
      intro hk
      exact hn ⟨⟨i1, i2⟩, ⟨j1, j2⟩, _, hx, rfl, hy, hr, by simp, fun _ => hk⟩
    | false =>
      have hv : ¬S.Shaped (Move.Normal s t true).action := fun h => Bool.false_ne_true (hv.2 h)
      refine ⟨.IncorrectMove, rfl, he, hn, ?_, ?_⟩
      · intro _ _ _ e; cases e
      · intro f r f' r' k e i i' hb hy hr
        cases e
        by_cases hk : k.Stuck S.side t.row
        · exact hv ⟨i, i', _, hb, rfl, hy, hr, fun _ => ⟨(stuck_promotes hk).1, .inr (stuck_promotes hk).2⟩, by simp⟩
        · exact hn ⟨i, i', _, hb, rfl, hy, hr, by simp, fun _ => hk⟩

omit P in
private theorem legal_unended {S : Shogi} {a : Action} (h : S.Legal a) : ¬S.Mated :=
  fun hm => hm.2 a (Shogi.shaped_mem h.1.1) h.1

/-- C86: for every move the client says that it is legal if it is, and what is wrong with it if it is not. -/
theorem C86_explain (p : PartialPosition) (hp : ApiReach p) (S : Shogi) (hS : p.Shows S) (m : Move) (hm : m.Valid) :
    ∃ v, p.explain m = .ok v ∧ (v = .ok () ↔ S.Legal m.action ∧ ¬S.Ended) ∧
      ∀ e, v = .error e ↔ S.Wrong m.action e := by
  suffices key : (p.explain m = .ok (.ok ()) ∧ S.Legal m.action ∧ ¬S.Ended) ∨
      ∃ e, p.explain m = .ok (.error e) ∧ S.Wrong m.action e by
    rcases key with ⟨h, hl⟩ | ⟨e, h, hw⟩
    · exact ⟨_, h, by simp [hl], fun e => ⟨nofun, fun h => absurd hl (Shogi.wrong_illegal h)⟩⟩
    · refine ⟨_, h, ⟨nofun, fun h => absurd h (Shogi.wrong_illegal hw)⟩, fun e' => ?_⟩
      rw [Except.error.injEq]
      exact ⟨fun h => h ▸ hw, Shogi.wrong_unique hw⟩
  obtain ⟨st, e1, _, _, _, h1, _⟩ := C86_status_alone p hp S hS
  by_cases he : S.Ended
  · have : st ≠ .InProgress := fun h => h1.1 h he
    exact .inr ⟨.GameFinished, by simp only [explain, e1, Res.bind_ok, if_pos this]; rfl, he⟩
  · have := h1.2 he; subst this
    have hc : ¬S.InCheck S.side.other := fun h => he (.inl h)
    simp only [explain, e1, Res.bind_ok, ne_eq, not_true_eq_false, if_false]
    obtain ⟨v, e2, h2⟩ := C85_fits p hp S hS m hm
    simp only [e2, Res.bind_ok]
    cases v with
    | false =>
      right
      have h2 : ¬S.Shaped m.action := fun h => Bool.false_ne_true (h2.2 h)
      simp only [Bool.false_eq_true, if_false]
      cases m with
      | Normal s t pr =>
        obtain ⟨e, h, hw⟩ := explain_normal_ok hp hS he hm.1 hm.2 pr h2
        exact ⟨e, by simp only [explain_misfit, h, Res.bind_ok]; rfl, hw⟩
      | Drop x t =>
        obtain ⟨k, c, rfl⟩ := Piece.exists_mk' hm.1
        simp only [Move.action, kindOfPiece_mk, colorOfPiece_mk] at h2 ⊢
        obtain ⟨e, h, hw⟩ := explain_drop_ok hp hS he k c hm.2 h2
        exact ⟨e, by simp only [explain_misfit, h, Res.bind_ok]; rfl, hw⟩
    | true =>
      have h2 := h2.1 rfl
      simp only [if_true]
      obtain ⟨w, e3, h3⟩ := C85_safe p hp S hS m hm
      have acc : ∃ q, p.make_move m = .ok (q, some ()) := (C28_accept_iff _ hp m hm).1.1 ((acceptable_step hS hm).2
        ((Shogi.shaped_step h2).2 (Shogi.shaped_no_capture hc h2)))
      simp only [e3, Res.bind_ok]
      cases w with
      | false =>
        refine .inr ⟨.IgnoredCheck, rfl, he, h2, ?_⟩
        apply Classical.byContradiction
        intro h
        exact Bool.false_ne_true (h3.2 ⟨⟨h2, h⟩, acc⟩)
      | true =>
        have h3 := (h3.1 rfl).1
        simp only [if_true]
        obtain ⟨u, e4, h4⟩ := C85_legal p hp S hS m hm
        obtain ⟨w, ew, hw⟩ := C84_in_check p hp S hS p.side_to_move.other
        rw [hS.side] at hw
        have : w = false := by
          cases w with
          | false => rfl
          | true => exact absurd (hw.1 rfl) hc
        subst this
        have e5 : p.legal m = (do return !(← p.pawn_mate m)) := by simp [legal, ew, e3]
        rw [e4] at e5
        cases e6 : p.pawn_mate m with
        | panic => rw [e6] at e5; cases e5
        | ub => rw [e6] at e5; cases e5
        | ok x =>
          rw [e6] at e5; cases e5
          simp only [Res.bind_ok]
          cases x with
          | false => exact .inl ⟨rfl, (h4.1 rfl).1, he⟩
          | true =>
            refine .inr ⟨.DropPawnMate, rfl, he, h3, ?_⟩
            apply Classical.byContradiction
            intro h
            exact Bool.false_ne_true (h4.2 ⟨⟨h3, fun c f r e hm => h ⟨c, f, r, e, hm⟩⟩, hc⟩)

/-! ### Example -/

/-- The reason given. -/
private def errorOf : Res (Except IllegalMoveKind Unit) → Option (Option IllegalMoveKind)
  | .ok (.ok ()) => some none
  | .ok (.error e) => some (some e)
  | _ => none

omit P in
private theorem errorOf_error {x : Res (Except IllegalMoveKind Unit)} {e} : errorOf x = some (some e) ↔ x = .ok (.error e) := by
  rcases x with (_ | _) | _ | _ <;> simp [errorOf]

omit P in
private theorem errorOf_ok {x : Res (Except IllegalMoveKind Unit)} : errorOf x = some none ↔ x = .ok (.ok ()) := by
  rcases x with (_ | _) | _ | _ <;> simp [errorOf]

/-- White's king on 1a, lance on 2a and rook on 8a, Black's king on 9i, gold on 1c and pawn on 5b; Black holds a pawn
and a gold. -/
private def sample : Res PartialPosition := do
  let p ← PartialPosition.empty.piece_set (Square.at 1 1) (some (Piece.mk' .King .White))
  let p ← p.piece_set (Square.at 2 1) (some (Piece.mk' .Lance .White))
  let p ← p.piece_set (Square.at 8 1) (some (Piece.mk' .Rook .White))
  let p ← p.piece_set (Square.at 9 9) (some (Piece.mk' .King .Black))
  let p ← p.piece_set (Square.at 1 3) (some (Piece.mk' .Gold .Black))
  let p ← p.piece_set (Square.at 5 2) (some (Piece.mk' .Pawn .Black))
  p.hand_of_a_player_mut_assign .Black ⟨#v[1, 0, 0, 0, 1, 0, 0, 0]⟩

set_option maxHeartbeats 2000000 in
/-- All reasons but one occur in one position, and the last one after the mate (in a 64-bit build with debug
assertions). -/
example : let _ : Profile := ⟨⟨true, .w64⟩⟩
    ∃ p q, ApiReach p ∧ (∃ S, p.Shows S) ∧
      p.explain (.Drop (Piece.mk' .Pawn .Black) (Square.at 1 2)) = .ok (.error .DropPawnMate) ∧
      p.explain (.Drop (Piece.mk' .Pawn .Black) (Square.at 6 1)) = .ok (.error .DropStuck) ∧
      p.explain (.Drop (Piece.mk' .Pawn .Black) (Square.at 5 5)) = .ok (.error .TwoPawns) ∧
      p.explain (.Drop (Piece.mk' .Pawn .White) (Square.at 6 5)) = .ok (.error .IncorrectMove) ∧
      p.explain (.Normal (Square.at 5 2) (Square.at 5 1) false) = .ok (.error .NormalStuck) ∧
      p.explain (.Normal (Square.at 5 2) (Square.at 5 1) true) = .ok (.ok ()) ∧
      p.explain (.Normal (Square.at 5 2) (Square.at 4 1) false) = .ok (.error .IncorrectMove) ∧
      p.explain (.Normal (Square.at 9 9) (Square.at 8 9) false) = .ok (.error .IgnoredCheck) ∧
      p.make_move (.Drop (Piece.mk' .Gold .Black) (Square.at 1 2)) = .ok (q, some ()) ∧ q.status_alone = .ok .BlackWins ∧
      q.explain (.Normal (Square.at 1 1) (Square.at 1 2) false) = .ok (.error .GameFinished) := by
  intro _
  have t : (match sample with
      | .ok p =>
        decide (errorOf (p.explain (.Drop (Piece.mk' .Pawn .Black) (Square.at 1 2))) = some (some .DropPawnMate)) &&
        decide (errorOf (p.explain (.Drop (Piece.mk' .Pawn .Black) (Square.at 6 1))) = some (some .DropStuck)) &&
        decide (errorOf (p.explain (.Drop (Piece.mk' .Pawn .Black) (Square.at 5 5))) = some (some .TwoPawns)) &&
        decide (errorOf (p.explain (.Drop (Piece.mk' .Pawn .White) (Square.at 6 5))) = some (some .IncorrectMove)) &&
        decide (errorOf (p.explain (.Normal (Square.at 5 2) (Square.at 5 1) false)) = some (some .NormalStuck)) &&
        decide (errorOf (p.explain (.Normal (Square.at 5 2) (Square.at 5 1) true)) = some none) &&
        decide (errorOf (p.explain (.Normal (Square.at 5 2) (Square.at 4 1) false)) = some (some .IncorrectMove)) &&
        decide (errorOf (p.explain (.Normal (Square.at 9 9) (Square.at 8 9) false)) = some (some .IgnoredCheck)) &&
        (match p.make_move (.Drop (Piece.mk' .Gold .Black) (Square.at 1 2)) with
          | .ok (q, some ()) => decide (q.status_alone = .ok .BlackWins)
          | _ => false)
      | _ => false) = true := by decide +kernel
  have put : ∀ p, ApiReach p → ∀ (s : Square) x, s.Valid → Piece.Valid x → ∃ q, p.piece_set s (some x) = .ok q ∧ ApiReach q := by
    intro p hp s x hs hx
    obtain ⟨q, e, _⟩ := C26_piece_set p hp s hs (some x) (by rintro _ ⟨⟩; exact hx)
    exact ⟨q, e, .step hp (.piece_set hs (by rintro _ ⟨⟩; exact hx) e)⟩
  obtain ⟨p1, e1, h1⟩ := put _ .empty (Square.at 1 1) (Piece.mk' .King .White) (by decide) (by decide)
  obtain ⟨p2, e2, h2⟩ := put _ h1 (Square.at 2 1) (Piece.mk' .Lance .White) (by decide) (by decide)
  obtain ⟨p3, e3, h3⟩ := put _ h2 (Square.at 8 1) (Piece.mk' .Rook .White) (by decide) (by decide)
  obtain ⟨p4, e4, h4⟩ := put _ h3 (Square.at 9 9) (Piece.mk' .King .Black) (by decide) (by decide)
  obtain ⟨p5, e5, h5⟩ := put _ h4 (Square.at 1 3) (Piece.mk' .Gold .Black) (by decide) (by decide)
  obtain ⟨p6, e6, h6⟩ := put _ h5 (Square.at 5 2) (Piece.mk' .Pawn .Black) (by decide) (by decide)
  cases e7 : p6.hand_of_a_player_mut_assign .Black ⟨#v[1, 0, 0, 0, 1, 0, 0, 0]⟩ with
  | panic => simp only [sample, e1, e2, e3, e4, e5, e6, e7, Res.bind_ok] at t; cases t
  | ub => simp only [sample, e1, e2, e3, e4, e5, e6, e7, Res.bind_ok] at t; cases t
  | ok p =>
    have h7 : ApiReach p := .step h6 (.hand (by decide) e7)
    simp only [sample, e1, e2, e3, e4, e5, e6, e7, Res.bind_ok, Bool.and_eq_true, decide_eq_true_eq, errorOf_error, errorOf_ok] at t
    obtain ⟨⟨⟨⟨⟨⟨⟨⟨t1, t2⟩, t3⟩, t4⟩, t5⟩, t6⟩, t7⟩, t8⟩, t9⟩ := t
    split at t9
    · next q e =>
      have t9 := of_decide_eq_true t9
      exact ⟨p, q, h7, C53_total p h7, t1, t2, t3, t4, t5, t6, t7, t8, e, t9, by simp [explain, t9]⟩
    · cases t9

end ShogiCore
