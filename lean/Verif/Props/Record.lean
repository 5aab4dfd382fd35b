import Verif.Spec.Record
import Verif.Props.Sfen
import Verif.Props.Game

/- C54: a game record determines the game.  C55: `Position` shows the replayed game.
C56: moves lose nothing but the captured piece. -/

set_option linter.unusedSectionVars false

namespace ShogiCore
open PartialPosition
variable [P : Profile]

namespace PartialPosition

theorem Agree.refl (p : PartialPosition) : p.Agree p :=
  ⟨fun _ _ => rfl, fun _ _ _ => rfl, rfl, rfl⟩

theorem Agree.symm {p q : PartialPosition} (h : p.Agree q) : q.Agree p :=
  ⟨fun s hs => (h.board s hs).symm, fun k c hk => (h.hands k c hk).symm, h.side.symm, h.ply.symm⟩

theorem Agree.trans {p q r : PartialPosition} (h : p.Agree q) (h' : q.Agree r) : p.Agree r :=
  ⟨fun s hs => (h.board s hs).trans (h'.board s hs),
    fun k c hk => (h.hands k c hk).trans (h'.hands k c hk), h.side.trans h'.side,
    h.ply.trans h'.ply⟩

/-- Whether a move makes sense depends only on what an SFEN shows. -/
theorem Agree.acceptable {p p' : PartialPosition} (h : p.Agree p') {m : Move} (hm : m.Valid)
    (ha : p.Acceptable m) : p'.Acceptable m := by
  cases m with
  | Normal s t pr =>
    obtain ⟨k, h1, h2, h3⟩ := ha
    refine ⟨k, ?_, ?_, h3⟩
    · rw [← h.board s hm.1, ← h.side]; exact h1
    · rw [← h.board t hm.2, ← h.side]; exact h2
  | Drop x t =>
    obtain ⟨k, n, h1, h2, h3, h4, h5⟩ := ha
    refine ⟨k, n, by rw [← h.side]; exact h1, h2, ?_, ?_, h5⟩
    · rw [← h.board t hm.2]; exact h3
    · rw [h1, ← h.hands k _ h2, ← h1]; exact h4

theorem Agree.captures {p p' : PartialPosition} (h : p.Agree p') {t : Square} (ht : t.Valid)
    (k : PieceKind) (c : Color) : p.Captures t k c ↔ p'.Captures t k c := by
  simp only [Captures, h.side, h.board t ht]

/-- So does what it does. -/
theorem Agree.played {p p' q : PartialPosition} (h : p.Agree p') {m : Move} (hm : m.Valid)
    (hq : p.Played m q) : p'.Played m q := by
  refine ⟨?_, ?_, hq.last, hq.last_compact, by rw [← h.side]; exact hq.side,
    by rw [← h.ply]; exact hq.ply⟩
  · cases m with
    | Normal s t pr =>
      obtain ⟨⟨k, k', h1, h2, h3⟩, h4, h5⟩ := hq.board
      refine ⟨⟨k, k', by rw [← h.board s hm.1, ← h.side]; exact h1, h2,
        by rw [← h.side]; exact h3⟩, h4, fun u hu h1 h2 => ?_⟩
      rw [h5 u hu h1 h2, h.board u hu]
    | Drop x t =>
      obtain ⟨h1, h2⟩ := hq.board
      exact ⟨h1, fun u hu hut => by rw [h2 u hu hut, h.board u hu]⟩
  · intro k c hk
    obtain ⟨n, n', h1, h2, h3⟩ := hq.hands k c hk
    refine ⟨n, n', by rw [← h.hands k c hk]; exact h1, h2, ?_⟩
    cases m with
    | Normal s t pr =>
      simp only [HandAfter] at h3 ⊢
      rw [← h.captures hm.2]; exact h3
    | Drop x t => exact h3

/-- One move with the same text on both sides. -/
theorem Agree.step {p p' q q' : PartialPosition} (hp : ApiReach p) (hp' : ApiReach p')
    (h : p.Agree p') {m m' : Move} (hm : m.Valid) (hm' : m'.Valid)
    (e : p.make_move m = .ok (q, some ())) (e' : p'.make_move m' = .ok (q', some ()))
    (ht : to_usi_owned m.to_usi = to_usi_owned m'.to_usi) :
    m = m' ∧ q.Agree q' ∧ q.get_last_move = q'.get_last_move ∧
      q.last_compact_move = q'.last_compact_move := by
  have ha' := (C28_accept_iff p' hp' m' hm').1.2 ⟨q', e'⟩
  have hb := (C28_accept_iff p hp m' hm').1.1 (h.symm.acceptable hm' ha')
  have : m = m' := C14_position p hp m m' hm hm' ⟨q, e⟩ hb ht
  subst this
  have h1 := C29_effect p q hp m hm e
  have h2 := C29_effect p' q' hp' m hm e'
  obtain ⟨a, b, c, d, f, g⟩ := C29_determined p' q q' m hm (h.played hm h1) h2
  exact ⟨rfl, ⟨a, b, c, d⟩, f, g⟩

theorem Agree.replay {l l' : List Move} : ∀ {p p' r r' : PartialPosition}, ApiReach p → ApiReach p' →
    p.Agree p' → (∀ m ∈ l, m.Valid) → (∀ m ∈ l', m.Valid) →
    p.replay l = .ok (some r) → p'.replay l' = .ok (some r') →
    (l.map fun m => to_usi_owned m.to_usi) = (l'.map fun m => to_usi_owned m.to_usi) →
    l = l' ∧ r.Agree r' ∧ (l ≠ [] → r.get_last_move = r'.get_last_move ∧
      r.last_compact_move = r'.last_compact_move) := by
  induction l generalizing l' with
  | nil =>
    intro p p' r r' _ _ h _ _ e e' ht
    cases l' with
    | cons => cases ht
    | nil =>
      simp only [PartialPosition.replay, Res.ok.injEq, Option.some.injEq] at e e'
      subst e; subst e'
      exact ⟨rfl, h, fun h => absurd rfl h⟩
  | cons m l ih =>
    intro p p' r r' hp hp' h hl hl' e e' ht
    cases l' with
    | nil => cases ht
    | cons m' l' =>
      simp only [List.map_cons, List.cons.injEq] at ht
      have hm := hl m (by simp)
      have hm' := hl' m' (by simp)
      obtain ⟨⟨q, v⟩, e1⟩ : ∃ x, p.make_move m = .ok x := by
        cases hx : p.make_move m with
        | ok x => exact ⟨x, rfl⟩
        | panic => simp only [PartialPosition.replay, hx, Res.bind_panic] at e; cases e
        | ub => simp only [PartialPosition.replay, hx, Res.bind_ub] at e; cases e
      obtain ⟨⟨q', v'⟩, e1'⟩ : ∃ x, p'.make_move m' = .ok x := by
        cases hx : p'.make_move m' with
        | ok x => exact ⟨x, rfl⟩
        | panic => simp only [PartialPosition.replay, hx, Res.bind_panic] at e'; cases e'
        | ub => simp only [PartialPosition.replay, hx, Res.bind_ub] at e'; cases e'
      simp only [PartialPosition.replay, e1, Res.bind_ok] at e
      simp only [PartialPosition.replay, e1', Res.bind_ok] at e'
      cases v with
      | none => simp at e
      | some u =>
        cases v' with
        | none => simp at e'
        | some u' =>
          simp only [Option.isSome_some, if_true] at e e'
          obtain ⟨rfl, h1, h2, h3⟩ := h.step hp hp' hm hm' e1 e1' ht.1
          obtain ⟨rfl, g1, g2⟩ := ih (.step hp (.make_move hm e1)) (.step hp' (.make_move hm' e1'))
            h1 (fun m hx => hl m (by simp [hx])) (fun m hx => hl' m (by simp [hx])) e e' ht.2
          refine ⟨rfl, g1, fun _ => ?_⟩
          cases l with
          | nil =>
            simp only [PartialPosition.replay, Res.ok.injEq, Option.some.injEq] at e e'
            subst e; subst e'; exact ⟨h2, h3⟩
          | cons => exact g2 (by simp)

end PartialPosition

/-- C54: two `Position`s built from arbitrary initial positions whose records are the same
text have the same moves, the same initial and the same current position (on everything an SFEN
shows), and, once a move has been made, the same last move. -/
theorem C54_record (p p' : PartialPosition) (hp : ApiReach p) (hp' : ApiReach p')
    (l l' : List Move) (Q Q' : Position) (h : Position.From p l Q) (h' : Position.From p' l' Q')
    (e : Q.record = Q'.record) :
    Q.get_moves = Q'.get_moves ∧ Q.initial_position.Agree Q'.initial_position ∧
    Q.get_inner.Agree Q'.get_inner ∧
    (Q.get_moves ≠ [] → Q.last_move = Q'.last_move ∧
      Q.last_compact_move = Q'.last_compact_move) := by
  obtain ⟨a1, a2, a3, a4, _⟩ := C33_replay p hp l Q h
  obtain ⟨b1, b2, b3, b4, _⟩ := C33_replay p' hp' l' Q' h'
  simp only [Position.record, a1, a2, b1, b2, Prod.mk.injEq] at e
  obtain ⟨c1, c2, c3, c4⟩ := C36_injective p p' hp hp' e.1
  have hag : p.Agree p' := by
    refine ⟨c1, fun k c _ => ?_, c2, c4⟩
    have := c3 c
    simp only [hand_of_a_player_ok, Res.ok.injEq] at this
    rw [hand_ok, hand_ok, this]
  obtain ⟨d1, d2, d3⟩ := hag.replay hp hp' a4 b4 a3 b3 e.2
  refine ⟨by rw [a2, b2, d1], by rw [a1, b1]; exact hag, d2, fun hne => ?_⟩
  exact d3 (by rw [← a2]; exact hne)

/-- Non-vacuity: a record with a move, from the starting position. -/
example : ∃ Q, Position.From sp0 [.Normal (Square.at 7 7) (Square.at 7 6) false] Q ∧
    Q.record.2 = [.ok (ascii "7g7f")] := by
  have hm : (Move.Normal (Square.at 7 7) (Square.at 7 6) false).Valid := by decide
  rcases make_move_ok sp0_ok hm with ⟨_, q, e, _⟩ | ⟨h, _⟩
  · have e' : (Position.arbitrary_position sp0).make_move
        (.Normal (Square.at 7 7) (Square.at 7 6) false) =
        .ok (⟨sp0, q, [.Normal (Square.at 7 7) (Square.at 7 6) false]⟩, some ()) := by
      rw [position_make_move]; simp only [Position.arbitrary_position]; rw [e]; rfl
    refine ⟨_, Position.From.make_move (v := some ()) .start hm e', ?_⟩
    have : ∀ d : Build, @to_usi_owned ⟨d⟩
      (@Move.to_usi ⟨d⟩ _ _ (Move.Normal (Square.at 7 7) (Square.at 7 6) false)) =
        .ok (ascii "7g7f") := by decide +kernel
    exact congrArg (· :: []) (this P.build)
  · refine absurd ?_ h
    have h1 : sp0.cell (Square.at 7 7).idx0 = some (Piece.mk' .Pawn .Black) ∧
      sp0.cell (Square.at 7 6).idx0 = none ∧ sp0.side = .Black := by decide +kernel
    exact ⟨.Pawn, by rw [h1.2.2]; exact h1.1, .inl h1.2.1, by simp⟩

/-- C54: with the same initial position, the move texts determine the whole `Position`. -/
theorem C54_moves (p : PartialPosition) (hp : ApiReach p) (l l' : List Move) (Q Q' : Position)
    (h : Position.From p l Q) (h' : Position.From p l' Q')
    (e : Q.record.2 = Q'.record.2) : Q = Q' := by
  obtain ⟨a1, a2, a3, a4, _⟩ := C33_replay p hp l Q h
  obtain ⟨b1, b2, b3, b4, _⟩ := C33_replay p hp l' Q' h'
  simp only [Position.record, a2, b2] at e
  obtain ⟨rfl, _, _⟩ := (Agree.refl p).replay hp hp a4 b4 a3 b3 e
  rw [a3] at b3
  cases Q; cases Q'
  simp only [Position.initial_position, Position.get_moves, Position.get_inner, Res.ok.injEq,
    Option.some.injEq] at *
  rw [a1, b1, a2, b2, b3]

/-! ### C55 -/

/-- C55: every observer of a `Position` reports what the same observer of `PartialPosition`
reports after replaying the moves from the initial position. -/
theorem C55_observers (p : PartialPosition) (hp : ApiReach p) (l : List Move) (Q : Position)
    (h : Position.From p l Q) : ∃ q, p.replay l = .ok (some q) ∧
    Q.side_to_move = q.side_to_move ∧ Q.ply = q.get_ply ∧
    (∀ c, Q.hand_of_a_player c = q.hand_of_a_player c) ∧ (∀ x, Q.hand x = q.hand x) ∧
    (∀ s, Q.piece_at s = q.piece_at s) ∧
    (∀ s, Q.Position_piece_at s = q.PartialPosition_piece_at s) ∧
    Q.occupied_bitboard = q.occupied_bitboard ∧ Q.vacant_bitboard = q.vacant_bitboard ∧
    (∀ c, Q.player_bitboard c = q.player_bitboard c) ∧
    (∀ x, Q.piece_bitboard x = q.piece_bitboard x) ∧
    Q.last_move = q.get_last_move ∧ Q.last_compact_move = q.last_compact_move ∧
    Q.Position_last_compact_move = q.PartialPosition_last_compact_move ∧
    Q.to_sfen_owned = q.to_sfen_owned ∧ (∀ mem ptr, Q.to_sfen_c mem ptr = q.to_sfen_c mem ptr) :=
  ⟨Q.get_inner, (C33_replay p hp l Q h).2.2.1, rfl, rfl, fun _ => rfl, fun _ => rfl, fun _ => rfl,
    fun _ => rfl, rfl, rfl, fun _ => rfl, fun _ => rfl, rfl, rfl, rfl, rfl, fun _ _ => rfl⟩

/-! ### C56 -/

/-- C56: an accepted move can be taken back by anyone who knows it and the piece it captured:
positions that lead to agreeing positions by the same move with the same capture agree. -/
theorem C56_reversible (p p' q q' : PartialPosition) (hp : ApiReach p) (hp' : ApiReach p')
    (m : Move) (hm : m.Valid) (e : p.make_move m = .ok (q, some ()))
    (e' : p'.make_move m = .ok (q', some ())) (hq : q.Agree q')
    (hc : p.takenBy m = p'.takenBy m) : p.Agree p' := by
  have ha := (C28_accept_iff p hp m hm).1.2 ⟨q, e⟩
  have ha' := (C28_accept_iff p' hp' m hm).1.2 ⟨q', e'⟩
  have hP := C29_effect p q hp m hm e
  have hP' := C29_effect p' q' hp' m hm e'
  have hside : p.side_to_move = p'.side_to_move := by
    have := hP.side.symm.trans (hq.side.trans hP'.side)
    cases h1 : p.side_to_move <;> cases h2 : p'.side_to_move <;> rw [h1, h2] at this <;>
      first | rfl | cases this
  have hply : p.get_ply = p'.get_ply := by
    have h1 := hP.ply
    have h2 := hP'.ply
    rw [hq.ply] at h1
    have := p.get_ply.isLt
    have := p'.get_ply.isLt
    exact BitVec.eq_of_toNat_eq (by omega)
  refine ⟨?_, ?_, hside, hply⟩
  · intro u hu
    cases m with
    | Normal s t pr =>
      obtain ⟨⟨k, k1, a1, a2, a3⟩, a4, a5⟩ := hP.board
      obtain ⟨⟨l, l1, b1, b2, b3⟩, b4, b5⟩ := hP'.board
      by_cases h1 : u = t
      · subst h1; exact hc
      · by_cases h2 : u = s
        · subst h2
          have := hq.board t hm.2
          rw [a3, b3, hside] at this
          obtain ⟨rfl, _⟩ := Piece.mk'_inj (Option.some.inj (Res.ok.inj this))
          rw [a1, b1, hside]
          cases pr
          · simp only [Bool.false_eq_true, if_false] at a2 b2
            rw [← a2, ← b2]
          · simp only [if_true] at a2 b2
            cases a2 <;> cases b2 <;> rfl
        · rw [← a5 u hu h2 h1, ← b5 u hu h2 h1]; exact hq.board u hu
    | Drop x t =>
      obtain ⟨a1, a2⟩ := hP.board
      obtain ⟨b1, b2⟩ := hP'.board
      by_cases h1 : u = t
      · subst h1
        obtain ⟨_, _, _, _, h1, _⟩ := ha
        obtain ⟨_, _, _, _, h2, _⟩ := ha'
        rw [h1, h2]
      · rw [← a2 u hu h1, ← b2 u hu h1]; exact hq.board u hu
  · intro k c hk
    obtain ⟨n, n1, a1, a2, a3⟩ := hP.hands k c hk
    obtain ⟨o, o1, b1, b2, b3⟩ := hP'.hands k c hk
    have hn : n1 = o1 := by
      have := hq.hands k c hk
      rw [a2, b2] at this
      exact Option.some.inj (Res.ok.inj this)
    subst hn
    rw [a1, b1]
    congr 2
    cases m with
    | Normal s t pr =>
      have hcap : p.Captures t k c ↔ p'.Captures t k c := by
        have hc : p.piece_at t = p'.piece_at t := hc
        simp only [Captures, hside, hc]
      simp only [HandAfter] at a3 b3
      by_cases h : p.Captures t k c
      · have h1 := a3.1 h
        rw [b3.1 (hcap.1 h)] at h1
        have := congrArg (· - 1) h1
        simpa [BitVec.add_sub_cancel] using this.symm
      · rw [← a3.2 h, ← b3.2 (fun x => h (hcap.2 x))]
    | Drop x t =>
      simp only [HandAfter] at a3 b3
      split at a3
      · rename_i hx
        rw [if_pos hx] at b3
        have h1 := a3.2
        rw [b3.2] at h1
        have := congrArg (· + 1) h1
        simpa [BitVec.sub_add_cancel] using this.symm
      · rename_i hx; rw [if_neg hx] at b3; rw [← a3, ← b3]

end ShogiCore
