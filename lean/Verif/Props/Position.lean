import Verif.Lemmas.Startpos

/- C25-C29, C32-C35: positions and the effect of moves. -/

set_option linter.unusedSectionVars false

namespace ShogiCore
open PartialPosition

variable [P : Profile]

/-! ### C25 -/

/-- C25: the five kinds of bitboards agree with `piece_at` after any API history. -/
theorem C25_bitboards (p : PartialPosition) (h : ApiReach p) (s : Square) (hs : s.Valid) :
    (∀ k c, ∃ b, p.piece_bitboard (Piece.mk' k c) = .ok b ∧
      (b.Mem s ↔ p.piece_at s = .ok (some (Piece.mk' k c)))) ∧
    (∀ c, ∃ b, p.player_bitboard c = .ok b ∧
      (b.Mem s ↔ ∃ k, p.piece_at s = .ok (some (Piece.mk' k c)))) ∧
    (∀ k, ∃ b, p.piece_kind_bitboard k = .ok b ∧
      (b.Mem s ↔ ∃ c, p.piece_at s = .ok (some (Piece.mk' k c)))) ∧
    (p.occupied_bitboard.Mem s ↔ ∃ x, p.piece_at s = .ok (some x)) ∧
    (p.vacant_bitboard.Mem s ↔ p.piece_at s = .ok none) := by
  have ok := reach_ok h
  have hi := Square.idx0_lt hs
  have hocc : p.occupied_bitboard.bit s.idx0 = true ↔ ∃ x, p.cell s.idx0 = some x := by
    have : p.occupied_bitboard = (p.playerBB .Black).bitor (p.playerBB .White) := rfl
    rw [this, Bitboard.bit_bitor, Bool.or_eq_true, ok.player_bit _ _ hi, ok.player_bit _ _ hi]
    constructor
    · rintro (⟨k, e⟩ | ⟨k, e⟩) <;> exact ⟨_, e⟩
    · rintro ⟨x, e⟩
      obtain ⟨k, c, rfl⟩ := Piece.exists_mk' (ok.cells _ _ e)
      cases c
      · exact .inl ⟨k, e⟩
      · exact .inr ⟨k, e⟩
  simp only [piece_at_ok p hs, Res.ok.injEq]
  refine ⟨fun k c => ⟨_, piece_bitboard_ok p k c, ?_⟩, fun c => ⟨_, player_bitboard_ok p c, ?_⟩,
    fun k => ⟨_, piece_kind_bitboard_ok p k, ?_⟩, ?_, ?_⟩
  · rw [Bitboard.mem_iff _ hs, Bitboard.bit_bitand, Bool.and_eq_true, ok.kind_bit _ _ hi,
      ok.player_bit _ _ hi]
    constructor
    · rintro ⟨⟨d, e⟩, ⟨l, e'⟩⟩
      rw [e] at e'; obtain ⟨rfl, rfl⟩ := Piece.mk'_inj (Option.some.inj e'); exact e
    · intro e; exact ⟨⟨c, e⟩, ⟨k, e⟩⟩
  · rw [Bitboard.mem_iff _ hs, ok.player_bit _ _ hi]
  · rw [Bitboard.mem_iff _ hs, ok.kind_bit _ _ hi]
  · rw [Bitboard.mem_iff _ hs, hocc]
  · have hv : p.vacant_bitboard = p.occupied_bitboard.not := rfl
    rw [Bitboard.mem_iff _ hs, hv, Bitboard.bit_not _ hi]
    cases e : p.cell s.idx0 with
    | none =>
      have : ¬ p.occupied_bitboard.bit s.idx0 = true := by rw [hocc, e]; simp
      simpa using this
    | some x =>
      have : p.occupied_bitboard.bit s.idx0 = true := by rw [hocc, e]; simp
      simp [this]

/-- C25: every observer is total (no panic, no undefined behaviour) on every position
obtainable through the API, and `piece_at` returns valid pieces. -/
theorem C25_total (p : PartialPosition) (h : ApiReach p) (s : Square) (hs : s.Valid) :
    p.piece_at s = .ok none ∨ ∃ k c, p.piece_at s = .ok (some (Piece.mk' k c)) := by
  rw [piece_at_ok p hs]
  rcases (reach_ok h).cases s.idx0 with e | ⟨k, c, e⟩ <;> rw [e]
  · exact .inl rfl
  · exact .inr ⟨k, c, rfl⟩

/-- C25: the bitboards handed out are canonical, so the set-level theorems C15-C24 apply to
them. -/
theorem C25_canonical (p : PartialPosition) (h : ApiReach p) :
    (∀ x b, Piece.Valid x → p.piece_bitboard x = .ok b → b.Canonical) ∧
    (∀ c b, p.player_bitboard c = .ok b → b.Canonical) ∧
    (∀ k b, p.piece_kind_bitboard k = .ok b → b.Canonical) ∧
    p.occupied_bitboard.Canonical ∧ p.vacant_bitboard.Canonical := by
  have ok := reach_ok h
  refine ⟨?_, ?_, ?_, ?_, Bitboard.not_canonical _⟩
  · intro x b hx e
    obtain ⟨k, c, rfl⟩ := Piece.exists_mk' hx
    rw [piece_bitboard_ok] at e; cases e; exact Bitboard.bitand_canonical (ok.kind k)
  · intro c b e; rw [player_bitboard_ok] at e; cases e; exact ok.player c
  · intro k b e; rw [piece_kind_bitboard_ok] at e; cases e; exact ok.kind k
  · exact Bitboard.bitor_canonical (ok.player .Black) (ok.player .White)

/-- Non-vacuity: an API history with a capture, a promotion and a ply edit. -/
example : ∃ p, ApiReach p ∧ p.piece_at (Square.at 2 2) = .ok (some (Piece.mk' .ProBishop .Black)) ∧
    p.get_ply = 500 := by
  have key : ∀ d : Build, (do
      let p ← @startpos ⟨d⟩
      let p := (← @make_move ⟨d⟩ p (.Normal (Square.at 7 7) (Square.at 7 6) false)).1
      let p := (← @make_move ⟨d⟩ p (.Normal (Square.at 3 3) (Square.at 3 4) false)).1
      let p := (← @make_move ⟨d⟩ p (.Normal (Square.at 8 8) (Square.at 2 2) true)).1
      let p := (p.ply_set 500).1
      return (← @PartialPosition.piece_at ⟨d⟩ p (Square.at 2 2), p.get_ply)) =
        .ok (some (Piece.mk' .ProBishop .Black), 500) := by decide +kernel
  have key := profile_ind (motive := fun P => (do
      let p ← @startpos P
      let p := (← @make_move P p (.Normal (Square.at 7 7) (Square.at 7 6) false)).1
      let p := (← @make_move P p (.Normal (Square.at 3 3) (Square.at 3 4) false)).1
      let p := (← @make_move P p (.Normal (Square.at 8 8) (Square.at 2 2) true)).1
      let p := (p.ply_set 500).1
      return (← @PartialPosition.piece_at P p (Square.at 2 2), p.get_ply)) =
        .ok (some (Piece.mk' .ProBishop .Black), 500)) key P
  rw [startpos_ok] at key
  simp only [Res.bind_ok] at key
  have r0 : ApiReach sp0 := .startpos startpos_ok
  have vm : ∀ (a b c d : Nat) (pr : Bool), (Square.at a b).Valid → (Square.at c d).Valid →
    (Move.Normal (Square.at a b) (Square.at c d) pr).Valid := fun _ _ _ _ _ h h' => ⟨h, h'⟩
  have ex : ∀ (p : PartialPosition) (m : Move), ApiReach p → m.Valid →
      ∃ q r, p.make_move m = .ok (q, r) ∧ ApiReach q := by
    intro p m hp hm
    rcases make_move_ok (reach_ok hp) hm with ⟨_, q, e, _⟩ | ⟨_, e⟩
    · exact ⟨q, _, e, .step hp (.make_move hm e)⟩
    · exact ⟨p, _, e, hp⟩
  obtain ⟨p1, v1, e1, r1⟩ := ex sp0 _ r0 (vm 7 7 7 6 false (by decide) (by decide))
  rw [e1] at key; simp only [Res.bind_ok] at key
  obtain ⟨p2, v2, e2, r2⟩ := ex p1 _ r1 (vm 3 3 3 4 false (by decide) (by decide))
  rw [e2] at key; simp only [Res.bind_ok] at key
  obtain ⟨p3, v3, e3, r3⟩ := ex p2 _ r2 (vm 8 8 2 2 true (by decide) (by decide))
  rw [e3] at key; simp only [Res.bind_ok] at key
  refine ⟨(p3.ply_set 500).1, .step r3 .ply, ?_⟩
  rw [piece_at_ok _ (by decide)] at key ⊢
  simp only [Res.bind_ok, Res.pure_eq, Res.ok.injEq, Prod.mk.injEq] at key ⊢
  exact key

/-! ### C26 -/

/-- C26: `piece_set` changes one square and nothing else observable (besides the derived
bitboards of C25 and the king cache of C31). -/
theorem C26_piece_set (p : PartialPosition) (h : ApiReach p) (s : Square) (hs : s.Valid)
    (o : Option Piece) (ho : ∀ x, o = some x → x.Valid) :
    ∃ q, p.piece_set s o = .ok q ∧ q.piece_at s = .ok o ∧
      (∀ t : Square, t.Valid → t ≠ s → q.piece_at t = p.piece_at t) ∧
      (∀ c, q.hand_of_a_player c = p.hand_of_a_player c) ∧
      q.side_to_move = p.side_to_move ∧ q.get_ply = p.get_ply ∧
      q.last_compact_move = p.last_compact_move ∧ q.get_last_move = p.get_last_move := by
  obtain ⟨q, e, hq⟩ := piece_set_ok (reach_ok h) hs ho
  have hl : q.last_compact_move = p.last_compact_move := by
    simp only [last_compact_move, hq.last]
  refine ⟨q, e, ?_, ?_, ?_, hq.side, hq.ply, hl, ?_⟩
  · rw [piece_at_ok q hs, hq.cell _ (Square.idx0_lt hs), if_pos rfl]
  · intro t ht hne
    rw [piece_at_ok q ht, piece_at_ok p ht, hq.cell _ (Square.idx0_lt ht),
      if_neg (fun e => hne (Square.idx0_inj ht hs e))]
  · intro c; rw [hand_of_a_player_ok, hand_of_a_player_ok]; simp only [handOf, hq.hands]
  · simp only [get_last_move, hl]

/-- C26: setting is idempotent, and later settings of a square override earlier ones. -/
theorem C26_overwrite (p q r : PartialPosition) (h : ApiReach p) (s : Square) (hs : s.Valid)
    (o o' : Option Piece) (ho : ∀ x, o = some x → x.Valid) (ho' : ∀ x, o' = some x → x.Valid)
    (e : p.piece_set s o = .ok q) (e' : q.piece_set s o' = .ok r) :
    ∃ r', p.piece_set s o' = .ok r' ∧ ∀ t : Square, t.Valid → r.piece_at t = r'.piece_at t := by
  obtain ⟨q', eq, hq⟩ := piece_set_ok (reach_ok h) hs ho
  rw [e] at eq; cases eq
  obtain ⟨r1, er, hr⟩ := piece_set_ok hq.ok hs ho'
  rw [e'] at er; cases er
  obtain ⟨r', er', hr'⟩ := piece_set_ok (reach_ok h) hs ho'
  refine ⟨r', er', fun t ht => ?_⟩
  have := Square.idx0_lt ht
  rw [piece_at_ok r ht, piece_at_ok r' ht, hr.cell _ this, hr'.cell _ this, hq.cell _ this]
  split <;> rfl

/-- Non-vacuity: a white king on 5a over the gold placed there before. -/
example : ∃ p q, ApiReach p ∧ p.piece_at (Square.at 5 1) = .ok (some (Piece.mk' .Gold .Black)) ∧
    p.piece_set (Square.at 5 1) (some (Piece.mk' .King .White)) = .ok q ∧
    q.piece_at (Square.at 5 1) = .ok (some (Piece.mk' .King .White)) := by
  obtain ⟨p, e, h, _⟩ := C26_piece_set empty .empty (Square.at 5 1) (by decide)
    (some (Piece.mk' .Gold .Black)) (by rintro _ ⟨⟩; exact Piece.mk'_valid _ _)
  have hp : ApiReach p := .step .empty (.piece_set (by decide) (by rintro _ ⟨⟩; exact Piece.mk'_valid _ _) e)
  obtain ⟨q, e', h', _⟩ := C26_piece_set p hp (Square.at 5 1) (by decide)
    (some (Piece.mk' .King .White)) (by rintro _ ⟨⟩; exact Piece.mk'_valid _ _)
  exact ⟨p, q, hp, h, e', h'⟩

/-! ### C27 -/

/-- C27: a rejected `make_move` leaves the very same value. -/
theorem C27_make_move (p q : PartialPosition) (h : ApiReach p) (m : Move) (hm : m.Valid)
    (e : p.make_move m = .ok (q, none)) : q = p := by
  rcases make_move_ok (reach_ok h) hm with ⟨_, q', e', _⟩ | ⟨_, e'⟩ <;> rw [e'] at e <;> cases e
  rfl

/-- C27: a rejected `make_compact_move` leaves the very same value. -/
theorem C27_make_compact_move (p q : PartialPosition) (h : ApiReach p) (c : CompactMove)
    (hc : c.Valid) (e : p.make_compact_move c = .ok (q, false)) : q = p := by
  obtain ⟨m, hm, henc⟩ := hc
  rw [make_compact_of_encodes p hm henc] at e
  rcases make_move_ok (reach_ok h) hm with ⟨_, q', e', _⟩ | ⟨_, e'⟩ <;> rw [e'] at e <;> cases e
  rfl

/-- C27: the same for `Position`, including the move list and the initial position. -/
theorem C27_position (p q : Position) (h : ApiReach p.inner) (m : Move) (hm : m.Valid) :
    (p.make_move m = .ok (q, none) → q = p) ∧
    (∀ c, CompactMove.ofMove m = .ok c → p.make_compact_move c = .ok (q, false) → q = p) := by
  have key : p.make_move m = .ok (q, none) → q = p := by
    intro e
    unfold Position.make_move at e
    rcases make_move_ok (reach_ok h) hm with ⟨_, q', e', _⟩ | ⟨_, e'⟩ <;> rw [e'] at e <;> cases e
    rfl
  refine ⟨key, ?_⟩
  intro c hc e
  obtain ⟨c', hc', henc⟩ := CompactMove.ofMove_ok hm
  rw [hc] at hc'; cases hc'
  simp only [Position.make_compact_move, CompactMove.toMove_of_encodes hm henc, Res.bind_ok] at e
  cases hr : p.make_move m with
  | ok r =>
    obtain ⟨q', v⟩ := r
    rw [hr] at e
    cases v with
    | none => cases e; exact key hr
    | some u => cases e
  | panic => rw [hr] at e; cases e
  | ub => rw [hr] at e; cases e

/-- Non-vacuity: capturing the enemy king is rejected although the mover's piece is there. -/
example : ∃ p, ApiReach p ∧
    p.make_move (.Normal (Square.at 5 2) (Square.at 5 1) false) = .ok (p, none) ∧
    p.piece_at (Square.at 5 2) = .ok (some (Piece.mk' .Gold .Black)) ∧
    p.piece_at (Square.at 5 1) = .ok (some (Piece.mk' .King .White)) := by
  obtain ⟨p, e, h, _⟩ := C26_piece_set sp0 (.startpos startpos_ok) (Square.at 5 2) (by decide)
    (some (Piece.mk' .Gold .Black)) (by rintro _ ⟨⟩; exact Piece.mk'_valid _ _)
  have hp : ApiReach p := .step (.startpos startpos_ok)
    (.piece_set (by decide) (by rintro _ ⟨⟩; exact Piece.mk'_valid _ _) e)
  obtain ⟨q, e', hq⟩ := piece_set_ok sp0_ok (s := Square.at 5 2) (by decide)
    (o := some (Piece.mk' .Gold .Black)) (by rintro _ ⟨⟩; exact Piece.mk'_valid _ _)
  rw [e] at e'; cases e'
  have hk : p.cell (Square.at 5 1).idx0 = some (Piece.mk' .King .White) := by
    rw [hq.cell _ (by decide)]; decide +kernel
  refine ⟨p, hp, ?_, h, by rw [piece_at_ok p (by decide), hk]⟩
  rcases make_move_ok hq.ok (m := .Normal (Square.at 5 2) (Square.at 5 1) false)
    ⟨by decide, by decide⟩ with ⟨⟨k, _, h3 | ⟨l, hl, h3⟩, _⟩, _⟩ | ⟨_, e'⟩
  · rw [hk] at h3; cases h3
  · rw [hk] at h3; exact absurd (Piece.mk'_inj (Option.some.inj h3)).1.symm hl
  · exact e'

/-! ### C28 -/

/-- C28: a move is accepted exactly when it makes sense, and otherwise rejected (there is no
third outcome: no panic, no undefined behaviour). -/
theorem C28_accept_iff (p : PartialPosition) (h : ApiReach p) (m : Move) (hm : m.Valid) :
    (p.Acceptable m ↔ ∃ q, p.make_move m = .ok (q, some ())) ∧
    (¬ p.Acceptable m ↔ ∃ q, p.make_move m = .ok (q, none)) := by
  rw [acceptable_iff hm]
  rcases make_move_ok (reach_ok h) hm with ⟨ha, q', e', _⟩ | ⟨ha, e'⟩ <;> rw [e']
  · exact ⟨⟨fun _ => ⟨_, rfl⟩, fun _ => ha⟩, ⟨fun hn => absurd ha hn, by rintro ⟨q, ⟨⟩⟩⟩⟩
  · exact ⟨⟨fun hn => absurd hn ha, by rintro ⟨q, ⟨⟩⟩⟩, ⟨fun _ => ⟨_, rfl⟩, fun _ => ha⟩⟩

/-- C28: consequences spelled out: nothing moves from or onto an own piece, from an enemy
piece or from an empty square; no king is captured; no promoted piece or king is dropped. -/
theorem C28_never (p q : PartialPosition) (h : ApiReach p) (m : Move) (hm : m.Valid)
    (e : p.make_move m = .ok (q, some ())) :
    m.src ≠ some m.to ∧
    p.piece_at m.to ≠ .ok (some (Piece.mk' .King p.side_to_move.other)) ∧
    (∀ k, p.piece_at m.to ≠ .ok (some (Piece.mk' k p.side_to_move))) ∧
    (∀ k c t, m = .Drop (Piece.mk' k c) t → k.InHand ∧ c = p.side_to_move) := by
  rcases make_move_ok (reach_ok h) hm with ⟨ha, q', e', he⟩ | ⟨_, e'⟩ <;> rw [e'] at e <;> cases e
  cases m with
  | Normal s t pr =>
    obtain ⟨k, h1, h2, _⟩ := ha
    have hne : p.cell t.idx0 ≠ some (Piece.mk' .King p.side.other) ∧
        ∀ k, p.cell t.idx0 ≠ some (Piece.mk' k p.side) := by
      rcases h2 with h2 | ⟨l, hl, h2⟩ <;> rw [h2]
      · simp
      · refine ⟨fun e => hl (Piece.mk'_inj (Option.some.inj e)).1, fun k e => ?_⟩
        exact Color.other_ne _ (Piece.mk'_inj (Option.some.inj e)).2
    simp only [Move.src, Move.to, piece_at_ok p hm.2, ne_eq, Res.ok.injEq, side_to_move]
    refine ⟨?_, hne.1, hne.2, by rintro _ _ _ ⟨⟩⟩
    intro e; cases e; exact hne.2 k h1
  | Drop x t =>
    obtain ⟨k, hk, hx, h2, _⟩ := ha
    simp only [Move.src, Move.to, piece_at_ok p hm.2, ne_eq, Res.ok.injEq, side_to_move, h2]
    refine ⟨by simp, by simp, by simp, ?_⟩
    intro l c t' e; cases e
    obtain ⟨rfl, rfl⟩ := Piece.mk'_inj hx
    exact ⟨hk, rfl⟩

/-- Non-vacuity: in the starting position Black may play 7g7f and White may not. -/
example : sp0.Acceptable (.Normal (Square.at 7 7) (Square.at 7 6) false) ∧
    ¬ sp0.Acceptable (.Normal (Square.at 3 3) (Square.at 3 4) false) := by
  rw [acceptable_iff (by decide), acceptable_iff (by decide)]
  have h1 : sp0.cell (Square.at 7 7).idx0 = some (Piece.mk' .Pawn .Black) ∧
    sp0.cell (Square.at 7 6).idx0 = none ∧ sp0.side = .Black ∧
    sp0.cell (Square.at 3 3).idx0 = some (Piece.mk' .Pawn .White) := by decide +kernel
  refine ⟨⟨.Pawn, by rw [h1.2.2.1]; exact h1.1, .inl h1.2.1, by simp⟩, ?_⟩
  rintro ⟨k, h, _⟩
  rw [h1.2.2.2, h1.2.2.1] at h
  have := (Piece.mk'_inj (Option.some.inj h)).2
  cases this

/-! ### C29 -/

/-- C29: an accepted move has exactly the documented effect. -/
theorem C29_effect (p q : PartialPosition) (h : ApiReach p) (m : Move) (hm : m.Valid)
    (e : p.make_move m = .ok (q, some ())) : p.Played m q := by
  have ok := reach_ok h
  rcases make_move_ok ok hm with ⟨_, q', e', he⟩ | ⟨_, e'⟩ <;> rw [e'] at e <;> cases e
  obtain ⟨c, hof, henc, hlast⟩ := he.last
  have hlc : q.last_compact_move = some c := by
    have := CompactMove.ne_zero_of_encodes hm henc
    simp [last_compact_move, hlast, OptionCompactMove.ofOption, OptionCompactMove.toOption, this]
  have hl : q.get_last_move = .ok (some m) := by
    simp only [get_last_move, hlc, CompactMove.toMove_of_encodes hm henc, Res.bind_ok, Res.pure_eq]
  have hply : q.get_ply.toNat = (p.get_ply.toNat + 1) % 65536 := by
    simp only [get_ply, he.ply, BitVec.toNat_add]; rfl
  have hb := he.body
  cases m with
  | Normal s t pr =>
    obtain ⟨hs, ht⟩ := hm
    obtain ⟨k, k', h1, h2, hst, h3, h4, h5⟩ := hb
    refine ⟨⟨⟨k, k', ?_, ?_, ?_⟩, ?_, ?_⟩, ?_, hl, ⟨c, hof, hlc⟩, he.side, hply⟩
    · rw [piece_at_ok p hs, h1]; rfl
    · cases pr
      · simpa using h2
      · simpa [PieceKind.promote_iff] using h2
    · rw [piece_at_ok q ht, h3 _ (Square.idx0_lt ht), if_pos rfl]; rfl
    · rw [piece_at_ok q hs, h3 _ (Square.idx0_lt hs), if_neg hst, if_pos rfl]
    · intro u hu hus hut
      rw [piece_at_ok q hu, piece_at_ok p hu, h3 _ (Square.idx0_lt hu),
        if_neg (fun e => hut (Square.idx0_inj hu ht e)),
        if_neg (fun e => hus (Square.idx0_inj hu hs e))]
    · intro j d hj
      refine ⟨(p.handOf d).cell j hj, (q.handOf d).cell j hj, ?_, ?_, ?_⟩
      · rw [hand_ok, Hand.count_ok, dif_pos hj]
      · rw [hand_ok, Hand.count_ok, dif_pos hj]
      · simp only [HandAfter, Captures, side_to_move, piece_at_ok p ht, Res.ok.injEq]
        rcases h5 with ⟨h5, h6⟩ | ⟨l, hl, h5, h6⟩
        · rw [h5, h6]
          refine ⟨?_, fun _ => rfl⟩
          rintro ⟨_, l, _, ⟨⟩⟩
        · rw [h5, h6]
          by_cases hd : d = p.side
          · subst hd
            rw [if_pos rfl, Hand.bump, Hand.cell_setCell]
            by_cases hlj : l.base = j
            · subst hlj
              rw [if_pos rfl]
              exact ⟨fun _ => rfl, fun hn => absurd ⟨rfl, l, rfl, rfl⟩ hn⟩
            · rw [if_neg hlj]
              refine ⟨?_, fun _ => rfl⟩
              rintro ⟨_, l', hl', e⟩
              rw [(Piece.mk'_inj (Option.some.inj e)).1] at hlj
              exact absurd hl' hlj
          · rw [if_neg hd]
            exact ⟨fun hn => absurd hn.1 hd, fun _ => rfl⟩
  | Drop x t =>
    obtain ⟨hx, ht⟩ := hm
    obtain ⟨k, hk, rfl, h1, h2, h3, h4, h5⟩ := hb
    refine ⟨⟨?_, ?_⟩, ?_, hl, ⟨c, hof, hlc⟩, he.side, hply⟩
    · rw [piece_at_ok q ht, h3 _ (Square.idx0_lt ht), if_pos rfl]
    · intro u hu hut
      rw [piece_at_ok q hu, piece_at_ok p hu, h3 _ (Square.idx0_lt hu),
        if_neg (fun e => hut (Square.idx0_inj hu ht e))]
    · intro j d hj
      refine ⟨(p.handOf d).cell j hj, (q.handOf d).cell j hj, ?_, ?_, ?_⟩
      · rw [hand_ok, Hand.count_ok, dif_pos hj]
      · rw [hand_ok, Hand.count_ok, dif_pos hj]
      · simp only [HandAfter]
        rw [h5]
        by_cases hx : Piece.mk' k p.side = Piece.mk' j d
        · obtain ⟨rfl, rfl⟩ := Piece.mk'_inj hx
          rw [if_pos rfl, if_pos rfl, Hand.drop, Hand.cell_setCell, if_pos rfl]
          refine ⟨?_, rfl⟩
          intro e; exact h2 (by rw [e]; rfl)
        · rw [if_neg hx]
          by_cases hd : d = p.side
          · subst hd
            rw [if_pos rfl, Hand.drop, Hand.cell_setCell, if_neg]
            rintro rfl; exact hx rfl
          · rw [if_neg hd]

/-- C29: the effect determines everything observable: two positions both described by it
agree on every square, every hand count, side, ply and last move. -/
theorem C29_determined (p q q' : PartialPosition) (m : Move) (hm : m.Valid)
    (h : p.Played m q) (h' : p.Played m q') :
    (∀ s : Square, s.Valid → q.piece_at s = q'.piece_at s) ∧
    (∀ k c, k.InHand → q.hand (Piece.mk' k c) = q'.hand (Piece.mk' k c)) ∧
    q.side_to_move = q'.side_to_move ∧ q.get_ply = q'.get_ply ∧
    q.get_last_move = q'.get_last_move ∧ q.last_compact_move = q'.last_compact_move := by
  refine ⟨?_, ?_, h.side.trans h'.side.symm,
    BitVec.eq_of_toNat_eq (h.ply.trans h'.ply.symm), h.last.trans h'.last.symm, ?_⟩
  · intro u hu
    cases m with
    | Normal s t pr =>
      obtain ⟨⟨k, k1, a1, a2, a3⟩, a4, a5⟩ := h.board
      obtain ⟨⟨l, l1, b1, b2, b3⟩, b4, b5⟩ := h'.board
      rw [a1] at b1
      obtain ⟨rfl, _⟩ := Piece.mk'_inj (Option.some.inj (Res.ok.inj b1))
      have hkk : k1 = l1 := by
        cases pr
        · simp only [Bool.false_eq_true, if_false] at a2 b2; rw [a2, b2]
        · simp only [if_true, ← PieceKind.promote_iff] at a2 b2
          rw [a2] at b2; exact Option.some.inj b2
      subst hkk
      by_cases h1 : u = t
      · subst h1; rw [a3, b3]
      · by_cases h2 : u = s
        · subst h2; rw [a4, b4]
        · rw [a5 u hu h2 h1, b5 u hu h2 h1]
    | Drop x t =>
      obtain ⟨a1, a2⟩ := h.board
      obtain ⟨b1, b2⟩ := h'.board
      by_cases h1 : u = t
      · subst h1; rw [a1, b1]
      · rw [a2 u hu h1, b2 u hu h1]
  · intro k c hk
    obtain ⟨n, n1, a1, a2, a3⟩ := h.hands k c hk
    obtain ⟨m', m1, b1, b2, b3⟩ := h'.hands k c hk
    rw [a1] at b1; cases b1
    rw [a2, b2]
    congr 2
    cases m with
    | Normal s t pr =>
      by_cases hc : p.Captures t k c
      · rw [a3.1 hc, b3.1 hc]
      · rw [a3.2 hc, b3.2 hc]
    | Drop x t =>
      simp only [HandAfter] at a3 b3
      split at a3
      · rename_i hx; rw [if_pos hx] at b3; rw [a3.2, b3.2]
      · rename_i hx; rw [if_neg hx] at b3; rw [a3, b3]
  · obtain ⟨c, a1, a2⟩ := h.last_compact
    obtain ⟨d, b1, b2⟩ := h'.last_compact
    rw [a1] at b1; cases b1; rw [a2, b2]

/-- Non-vacuity: 7g7f from the starting position. -/
example : ∃ q, sp0.make_move (.Normal (Square.at 7 7) (Square.at 7 6) false) = .ok (q, some ()) ∧
    sp0.Played (.Normal (Square.at 7 7) (Square.at 7 6) false) q := by
  have ha : sp0.Acceptable (.Normal (Square.at 7 7) (Square.at 7 6) false) := by
    rw [acceptable_iff (by decide)]
    have h1 : sp0.cell (Square.at 7 7).idx0 = some (Piece.mk' .Pawn .Black) ∧
      sp0.cell (Square.at 7 6).idx0 = none ∧ sp0.side = .Black := by decide +kernel
    exact ⟨.Pawn, by rw [h1.2.2]; exact h1.1, .inl h1.2.1, by simp⟩
  obtain ⟨q, e⟩ := (C28_accept_iff sp0 (.startpos startpos_ok) _ (by decide)).1.1 ha
  exact ⟨q, e, C29_effect _ _ (.startpos startpos_ok) _ (by decide) e⟩

end ShogiCore
