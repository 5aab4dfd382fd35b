import Verif.Lemmas.Count
import Verif.Props.Move

/- C14 (within one position), C30-C35: games. -/

set_option linter.unusedSectionVars false

namespace ShogiCore
open PartialPosition

variable [P : Profile]

theorem reach_of_startpos {p : PartialPosition} (h : startpos = .ok p) : p = sp0 := by
  rw [startpos_ok] at h; exact (Res.ok.inj h).symm

/-! ### C14, within one position -/

/-- C14: among the moves accepted in one position, the text determines the move. -/
theorem C14_position (p : PartialPosition) (h : ApiReach p) (m m' : Move) (hm : m.Valid)
    (hm' : m'.Valid) (ha : ∃ q, p.make_move m = .ok (q, some ()))
    (ha' : ∃ q, p.make_move m' = .ok (q, some ()))
    (e : to_usi_owned m.to_usi = to_usi_owned m'.to_usi) : m = m' := by
  obtain ⟨q, hq⟩ := ha
  obtain ⟨q', hq'⟩ := ha'
  rcases make_move_ok (reach_ok h) hm with ⟨a, _⟩ | ⟨_, e1⟩
  rotate_left
  · rw [e1] at hq; cases hq
  rcases make_move_ok (reach_ok h) hm' with ⟨a', _⟩ | ⟨_, e1⟩
  rotate_left
  · rw [e1] at hq'; cases hq'
  rcases (C14_forget_eq_iff m m' hm hm').1 ((C14_text_eq_iff m m' hm hm').1 e) with
    e | ⟨x, x', t, k, rfl, rfl, hk, hk'⟩
  · exact e
  · obtain ⟨j, _, rfl, _⟩ := a
    obtain ⟨j', _, rfl, _⟩ := a'
    rw [Piece.piece_kind_mk'] at hk hk'
    cases hk; cases hk'; rfl

/-- Non-vacuity: 7g7f is accepted in the starting position. -/
example : ∃ q, sp0.make_move (.Normal (Square.at 7 7) (Square.at 7 6) false) = .ok (q, some ()) := by
  rcases make_move_ok sp0_ok (m := .Normal (Square.at 7 7) (Square.at 7 6) false) (by decide) with
    ⟨_, q, e, _⟩ | ⟨h, _⟩
  · exact ⟨q, e⟩
  · refine absurd ?_ h
    have h1 : sp0.cell (Square.at 7 7).idx0 = some (Piece.mk' .Pawn .Black) ∧
      sp0.cell (Square.at 7 6).idx0 = none ∧ sp0.side = .Black := by decide +kernel
    exact ⟨.Pawn, by rw [h1.2.2]; exact h1.1, .inl h1.2.1, by simp⟩

/-! ### C30 -/

theorem inHand_eq (p : PartialPosition) (k : PieceKind) (c : Color) :
    p.inHand k c = handCount (p.handOf c) k := by
  unfold PartialPosition.inHand handCount
  rw [hand_ok, Hand.count_ok]
  by_cases hk : k.InHand <;> simp [hk]

theorem onBoard_eq (p : PartialPosition) (k : PieceKind) : p.onBoard k = p.boardCount k := by
  unfold PartialPosition.onBoard boardCount allSquares
  rw [List.filter_map, List.length_map, sumTo_filter]
  apply sumTo_congr
  intro i hi
  have hat : Square.at (i / 9 + 1) (i % 9 + 1) = Square.ofIdx i := by
    revert i; decide +kernel
  simp only [Function.comp, hat, piece_at_ok p (Square.ofIdx_valid hi), Square.idx0_ofIdx hi]
  cases p.cell i with
  | none => rfl
  | some x => simp [weight]

/-- C30: in every game each kind keeps its number, on the board (promoted pieces counted as
their base kind) plus in the two hands: 18 pawns, 4 lances, 4 knights, 4 silvers, 4 golds,
2 bishops, 2 rooks and 2 kings. -/
theorem C30_conservation (q : PartialPosition) (h : GameReach q) (k : PieceKind) :
    q.onBoard k + q.inHand k .Black + q.inHand k .White = pieceSupply k := by
  obtain ⟨p, l, hp, h⟩ := h
  rw [reach_of_startpos hp] at h
  rw [onBoard_eq, inHand_eq, inHand_eq]
  have := total_from sp0_ok (fun k => by
    rw [total_sp0]; exact Nat.lt_of_le_of_lt (pieceSupply_le k) (by omega)) h k
  rw [total_sp0] at this
  exact this

/-- C30: hence no hand counter ever wraps in a game: every accepted capture makes the counter
exactly one larger as a number, and counters never exceed the supply. -/
theorem C30_no_wrap (q : PartialPosition) (h : GameReach q) (k : PieceKind) (c : Color) :
    q.inHand k c ≤ pieceSupply k ∧ q.inHand k c ≤ 18 ∧
    ∀ m r, m.Valid → q.make_move m = .ok (r, some ()) →
      r.inHand k c ≤ q.inHand k c + 1 ∧ q.inHand k c ≤ r.inHand k c + 1 := by
  have h1 := C30_conservation q h k
  have h2 := pieceSupply_le k
  have h3 : q.inHand k c ≤ pieceSupply k := by cases c <;> omega
  refine ⟨h3, by omega, ?_⟩
  intro m r hm e
  have ok := reach_ok (game_reach h)
  rcases make_move_ok ok hm with ⟨_, q', e', he⟩ | ⟨_, e'⟩ <;> rw [e'] at e <;> cases e
  have hbound : ∀ c k hk, ((q.handOf c).cell k hk).toNat < 255 := by
    intro c k hk
    have h1 := C30_conservation q h k
    have h2 := pieceSupply_le k
    have h3 := inHand_eq q k c
    unfold handCount at h3
    rw [dif_pos hk] at h3
    cases c <;> omega
  rw [inHand_eq, inHand_eq]
  have hbody := he.body
  cases m with
  | Normal s t pr =>
    obtain ⟨_, _, _, _, _, _, _, ⟨_, h6⟩ | ⟨l, hl, _, h6⟩⟩ := hbody
    · rw [h6]; omega
    · rw [h6]
      split
      · rw [handCount_bump _ _ _ hl (hbound _ _ _)]; split <;> omega
      · omega
  | Drop x t =>
    obtain ⟨j, hj, _, _, h2, _, _, h5⟩ := hbody
    rw [h5]
    split
    · rename_i hc; subst hc
      have := handCount_drop (q.handOf q.side) k j hj h2
      split at this <;> omega
    · omega

/-- C30 in general: from any position obtainable through the API in which fewer than 255
pieces of each kind exist, moves change no total. -/
theorem C30_general (p q : PartialPosition) (l : List Move) (hp : ApiReach p)
    (hs : ∀ k, p.onBoard k + p.inHand k .Black + p.inHand k .White < 255)
    (h : Game.From p l q) (k : PieceKind) :
    q.onBoard k + q.inHand k .Black + q.inHand k .White =
      p.onBoard k + p.inHand k .Black + p.inHand k .White := by
  simp only [onBoard_eq, inHand_eq] at hs ⊢
  exact total_from (reach_ok hp) hs h k

/-- Non-vacuity: the starting position is itself a game position with 18 pawns. -/
example : GameReach sp0 ∧ sp0.onBoard .Pawn = 18 := by
  refine ⟨⟨sp0, [], startpos_ok, .start⟩, ?_⟩
  rw [onBoard_eq]; decide +kernel

/-! ### C31 -/

theorem kingAt_of_kingOk {p : PartialPosition} {c : Color} (h : p.KingOk c) :
    ∃ s, p.KingAt c s ∧ p.king_position c = .ok (some s) := by
  obtain ⟨s, hs, h1, h2⟩ := h
  refine ⟨s, ⟨hs, fun t ht => ?_⟩, ?_⟩
  · rw [piece_at_ok p ht]
    simp only [Res.ok.injEq, h2 _ (Square.idx0_lt ht)]
    exact ⟨Square.idx0_inj ht hs, fun e => by rw [e]⟩
  · rw [king_position_ok, h1, OptionSquare.toOption_ofOption_some hs]

theorem kingOk_of_kingAt {p : PartialPosition} {c : Color} {s : Square} (h : p.KingAt c s)
    (hk : p.king_position c = .ok (some s)) : p.KingOk c := by
  obtain ⟨hs, h1⟩ := h
  rw [king_position_ok] at hk
  refine ⟨s, hs, ?_, fun i hi => ?_⟩
  · have e := Res.ok.inj hk
    unfold OptionSquare.toOption at e
    split at e
    · cases e
    · cases e; rfl
  · have := h1 _ (Square.ofIdx_valid hi)
    rw [piece_at_ok p (Square.ofIdx_valid hi), Square.idx0_ofIdx hi] at this
    simp only [Res.ok.injEq] at this
    rw [this]
    constructor
    · intro e; rw [← e, Square.idx0_ofIdx hi]
    · intro e; rw [e, Square.ofIdx_idx0 hs]

/-- C31: in every game each player has exactly one king, and `king_position` is its square. -/
theorem C31_games (q : PartialPosition) (h : GameReach q) (c : Color) :
    ∃ s, q.KingAt c s ∧ q.king_position c = .ok (some s) := by
  obtain ⟨p, l, hp, h⟩ := h
  rw [reach_of_startpos hp] at h
  exact kingAt_of_kingOk (kingOk_from sp0_ok (kingOk_sp0 c) h)

/-- C31 in general: moves keep the king cache right, from any position in which it is. -/
theorem C31_preserved (p q : PartialPosition) (l : List Move) (hp : ApiReach p) (c : Color)
    (s : Square) (hk : p.KingAt c s) (hc : p.king_position c = .ok (some s)) (h : Game.From p l q) :
    ∃ t, q.KingAt c t ∧ q.king_position c = .ok (some t) :=
  kingAt_of_kingOk (kingOk_from (reach_ok hp) (kingOk_of_kingAt hk hc) h)

/-- C31: no accepted move captures or drops a king. -/
theorem C31_never_captured (p q : PartialPosition) (h : ApiReach p) (m : Move) (hm : m.Valid)
    (e : p.make_move m = .ok (q, some ())) :
    (∀ c, p.piece_at m.to ≠ .ok (some (Piece.mk' .King c))) ∧
    ∀ c t, m ≠ .Drop (Piece.mk' .King c) t := by
  rcases make_move_ok (reach_ok h) hm with ⟨ha, q', e', he⟩ | ⟨_, e'⟩ <;> rw [e'] at e <;> cases e
  cases m with
  | Normal s t pr =>
    obtain ⟨k, h1, h2, _⟩ := ha
    refine ⟨fun c e => ?_, by rintro _ _ ⟨⟩⟩
    rw [Move.to, piece_at_ok p hm.2] at e
    have e := Res.ok.inj e
    rcases h2 with h2 | ⟨l, hl, h2⟩ <;> rw [h2] at e
    · cases e
    · exact hl (Piece.mk'_inj (Option.some.inj e)).1
  | Drop x t =>
    obtain ⟨k, hk, hx, h2, _⟩ := ha
    refine ⟨fun c e => ?_, ?_⟩
    · rw [Move.to, piece_at_ok p hm.2, h2] at e; cases e
    · rintro c t ⟨⟩
      have := (Piece.mk'_inj hx).1
      subst this; exact hk

/-- C31: exact behaviour of the cache under `piece_set`: it follows kings being placed and
ignores everything else (in particular kings being removed). -/
theorem C31_piece_set (p q : PartialPosition) (h : ApiReach p) (s : Square) (hs : s.Valid)
    (o : Option Piece) (ho : ∀ x, o = some x → x.Valid) (e : p.piece_set s o = .ok q) (c : Color) :
    q.king_position c =
      if o = some (Piece.mk' .King c) then .ok (some s) else p.king_position c := by
  obtain ⟨q', e', hq⟩ := piece_set_ok (reach_ok h) hs ho
  rw [e] at e'; cases e'
  rw [king_position_ok, king_position_ok, hq.king]
  split
  · rw [OptionSquare.toOption_ofOption_some hs]
  · rfl

/-- C31 for board editing, the safe uses: as long as `piece_set` never overwrites or
removes a king of colour `c` and never places a second one, the cache stays right; and
placing the first king makes it right. -/
theorem C31_piece_set_safe (p q : PartialPosition) (h : ApiReach p) (s : Square) (hs : s.Valid)
    (o : Option Piece) (ho : ∀ x, o = some x → x.Valid) (e : p.piece_set s o = .ok q) (c : Color) :
    (∀ k, p.KingAt c k → p.king_position c = .ok (some k) → s ≠ k → o ≠ some (Piece.mk' .King c) →
      q.KingAt c k ∧ q.king_position c = .ok (some k)) ∧
    ((∀ t : Square, t.Valid → p.piece_at t ≠ .ok (some (Piece.mk' .King c))) →
      o = some (Piece.mk' .King c) → q.KingAt c s ∧ q.king_position c = .ok (some s)) := by
  have hk := C31_piece_set p q h s hs o ho e c
  obtain ⟨q', e', hq⟩ := piece_set_ok (reach_ok h) hs ho
  rw [e] at e'; cases e'
  constructor
  · intro k hka hkp hne hno
    rw [if_neg hno, hkp] at hk
    refine ⟨⟨hka.1, fun t ht => ?_⟩, hk⟩
    rw [← hka.2 t ht, piece_at_ok q ht, piece_at_ok p ht, hq.cell _ (Square.idx0_lt ht)]
    split
    · rename_i ht'
      have := Square.idx0_inj ht hs ht'
      subst this
      constructor
      · intro e; exact absurd (Res.ok.inj e) hno
      · intro e
        have := (hka.2 t ht).1 (by rw [piece_at_ok p ht, e]); exact absurd this hne
    · rfl
  · intro hno ho'
    rw [if_pos ho'] at hk
    refine ⟨⟨hs, fun t ht => ?_⟩, hk⟩
    rw [piece_at_ok q ht, hq.cell _ (Square.idx0_lt ht)]
    split
    · rename_i ht'
      simp [ho', Square.idx0_inj ht hs ht']
    · rename_i ht'
      have := hno t ht
      rw [piece_at_ok p ht] at this
      constructor
      · intro e; exact absurd e this
      · intro e; exact absurd (by rw [e]) ht'

/-- C31 for arbitrary histories is false: after removing the king from 5i, `king_position`
still answers 5i, where no piece is, and no black king is anywhere. -/
theorem C31_refuted : ∃ p, ApiReach p ∧ p.king_position .Black = .ok (some (Square.at 5 9)) ∧
    ∀ t : Square, t.Valid → p.piece_at t ≠ .ok (some (Piece.mk' .King .Black)) := by
  have hs : (Square.at 5 9).Valid := by decide
  obtain ⟨q, e, hq⟩ := piece_set_ok sp0_ok hs (o := none) (by simp)
  have r0 : ApiReach sp0 := .startpos startpos_ok
  have hk := C31_piece_set sp0 q r0 _ hs none (by simp) e .Black
  have h1 : (sp0.kingOf .Black).toOption = some (Square.at 5 9) ∧
      ∀ i < 81, sp0.cell i = some (Piece.mk' .King .Black) → i = (Square.at 5 9).idx0 := by
    decide +kernel
  refine ⟨q, .step r0 (.piece_set hs (by simp) e), ?_, ?_⟩
  · rw [hk, king_position_ok, h1.1]; rfl
  · intro t ht e
    have hi := Square.idx0_lt ht
    rw [piece_at_ok q ht, hq.cell _ hi] at e
    have e := Res.ok.inj e
    split at e
    · cases e
    · rename_i hne; exact hne (h1.2 _ hi e)

/-- Non-vacuity: kings of the starting position. -/
example : GameReach sp0 ∧ sp0.king_position .White = .ok (some (Square.at 5 1)) := by
  refine ⟨⟨sp0, [], startpos_ok, .start⟩, ?_⟩
  rw [king_position_ok]; decide +kernel

/-! ### C32 -/

/-- The player to move `n` moves after `c` was. -/
def sideAfter (c : Color) (n : Nat) : Color := if n % 2 = 0 then c else c.other

/-- C32: side to move and ply after any sequence of move calls with `l` accepted. -/
theorem C32_bookkeeping (p q : PartialPosition) (l : List Move) (hp : ApiReach p)
    (h : Game.From p l q) :
    q.side_to_move = sideAfter p.side_to_move l.length ∧
    q.get_ply.toNat = (p.get_ply.toNat + l.length) % 65536 := by
  simp only [side_to_move, get_ply]
  induction h with
  | start =>
    refine ⟨rfl, ?_⟩
    have := p.ply.isLt
    simp only [List.length_nil]; omega
  | @accept l q r m h hm e ih =>
    rcases make_move_ok (from_ok (reach_ok hp) h) hm with ⟨_, q', e', he⟩ | ⟨_, e'⟩ <;>
      rw [e'] at e <;> cases e
    obtain ⟨ih1, ih2⟩ := ih
    constructor
    · rw [he.side, ih1, List.length_append, List.length_singleton]
      unfold sideAfter
      by_cases hn : l.length % 2 = 0
      · rw [if_pos hn, if_neg (by omega)]
      · rw [if_neg hn, if_pos (by omega), Color.other_other]
    · rw [he.ply, BitVec.toNat_add, ih2, List.length_append, List.length_singleton]
      have : (1 : U16).toNat = 1 := rfl
      omega
  | reject h hm e ih =>
    rcases make_move_ok (from_ok (reach_ok hp) h) hm with ⟨_, q', e', he⟩ | ⟨_, e'⟩ <;>
      rw [e'] at e <;> cases e
    exact ih

/-- C32: `ply_set` and `side_to_move_set`. -/
theorem C32_setters (p : PartialPosition) (n : U16) (c : Color) :
    ((p.ply_set n).2 = true ↔ n ≠ 0) ∧
    (n ≠ 0 → (p.ply_set n).1.get_ply = n) ∧ (n = 0 → (p.ply_set n).1 = p) ∧
    (p.side_to_move_set c).side_to_move = c ∧
    (∀ s : Square, s.Valid → (p.ply_set n).1.piece_at s = p.piece_at s ∧
      (p.side_to_move_set c).piece_at s = p.piece_at s) ∧
    (∀ d, (p.ply_set n).1.hand_of_a_player d = p.hand_of_a_player d ∧
      (p.side_to_move_set c).hand_of_a_player d = p.hand_of_a_player d) ∧
    (p.ply_set n).1.side_to_move = p.side_to_move ∧ (p.side_to_move_set c).get_ply = p.get_ply ∧
    (p.ply_set n).1.last_compact_move = p.last_compact_move ∧
    (p.side_to_move_set c).last_compact_move = p.last_compact_move := by
  unfold ply_set side_to_move_set
  by_cases h : n = 0
  · subst h
    exact ⟨by simp, by simp, by simp, rfl, fun _ _ => ⟨rfl, rfl⟩, fun _ => ⟨rfl, rfl⟩, rfl, rfl, rfl, rfl⟩
  · simp only [h, if_false]
    exact ⟨by simpa using h, fun _ => rfl, by simp, rfl, fun _ _ => ⟨rfl, rfl⟩, fun _ => ⟨rfl, rfl⟩, rfl, rfl, rfl, rfl⟩

/-- C32: `hand_of_a_player_mut` reaches exactly the requested hand. -/
theorem C32_hand_mut (p : PartialPosition) (c : Color) (h : Hand) :
    ∃ q, p.hand_of_a_player_mut_assign c h = .ok q ∧ q.hand_of_a_player c = .ok h ∧
      q.hand_of_a_player c.other = p.hand_of_a_player c.other ∧
      (∀ s : Square, s.Valid → q.piece_at s = p.piece_at s) ∧
      q.side_to_move = p.side_to_move ∧ q.get_ply = p.get_ply ∧
      q.last_compact_move = p.last_compact_move := by
  refine ⟨_, hand_assign_ok p c h, ?_, ?_, fun _ _ => rfl, rfl, rfl, rfl⟩
  · rw [hand_of_a_player_ok]
    exact congrArg Res.ok ((handOf_setHand p c c h).trans (if_pos rfl))
  · rw [hand_of_a_player_ok, hand_of_a_player_ok]
    exact congrArg Res.ok ((handOf_setHand p c c.other h).trans (if_neg (Color.other_ne c).symm))

/-- Non-vacuity: the 16-bit wrap-around of ply (finding: ply 0 is reachable although `ply_set`
refuses it). -/
example : ∃ p q, ApiReach p ∧ Game.From p [.Normal (Square.at 7 7) (Square.at 7 6) false] q ∧
    p.get_ply = 65535 ∧ q.get_ply = 0 := by
  let p := (sp0.ply_set 65535).1
  have hp : ApiReach p := .step (.startpos startpos_ok) .ply
  have h1 : p.cell (Square.at 7 7).idx0 = some (Piece.mk' .Pawn .Black) ∧
      p.cell (Square.at 7 6).idx0 = none ∧ p.side = .Black ∧ p.ply = 65535 := by decide +kernel
  rcases make_move_ok (reach_ok hp) (m := .Normal (Square.at 7 7) (Square.at 7 6) false)
    (by decide) with ⟨_, q, e, he⟩ | ⟨h, _⟩
  · refine ⟨p, q, hp, .accept (l := []) .start (by decide) e, h1.2.2.2, ?_⟩
    rw [get_ply, he.ply, h1.2.2.2]; rfl
  · exact absurd ⟨.Pawn, by rw [h1.2.2.1]; exact h1.1, .inl h1.2.1, by simp⟩ h

/-! ### C33 -/

theorem position_make_move (P0 : Position) (m : Move) :
    P0.make_move m = (do
      let (q, r) ← P0.inner.make_move m
      return ({ P0 with
        inner := q
        moves := match r with | none => P0.moves | some _ => P0.moves ++ [m] }, r)) := by
  unfold Position.make_move
  cases P0.inner.make_move m with
  | ok x => obtain ⟨q, r⟩ := x; cases r <;> rfl
  | panic => rfl
  | ub => rfl

theorem replay_append (p q : PartialPosition) (l : List Move) (m : Move)
    (h : p.replay l = .ok (some q)) :
    p.replay (l ++ [m]) = q.replay [m] := by
  induction l generalizing p with
  | nil => rw [replay] at h; cases h; rfl
  | cons a l ih =>
    rw [List.cons_append, replay]
    rw [replay] at h
    cases hm : p.make_move a with
    | ok x =>
      obtain ⟨r, v⟩ := x
      rw [hm] at h
      simp only [Res.bind_ok] at h ⊢
      cases v with
      | none => simp at h
      | some u => simp only [Option.isSome_some, if_true] at h ⊢; exact ih r h
    | panic => rw [hm] at h; cases h
    | ub => rw [hm] at h; cases h

/-- C33: a `Position` built by move calls records exactly the accepted moves, keeps its
initial position, and its inner position is the result of replaying the moves. -/
theorem C33_replay (p : PartialPosition) (hp : ApiReach p) (l : List Move) (Q : Position)
    (h : Position.From p l Q) :
    Q.initial_position = p ∧ Q.get_moves = l ∧ p.replay l = .ok (some Q.get_inner) ∧
    (∀ m ∈ l, m.Valid) ∧ ApiReach Q.get_inner := by
  simp only [Position.initial_position, Position.get_moves, Position.get_inner]
  have step : ∀ (Q R : Position) (l : List Move) (m : Move) (v : Option Unit), m.Valid →
      (Q.initial = p ∧ Q.moves = l ∧ p.replay l = .ok (some Q.inner) ∧ (∀ m ∈ l, m.Valid) ∧
        ApiReach Q.inner) →
      Q.make_move m = .ok (R, v) →
      (R.initial = p ∧ R.moves = (if v.isSome then l ++ [m] else l) ∧
        p.replay (if v.isSome then l ++ [m] else l) = .ok (some R.inner) ∧
        (∀ m' ∈ (if v.isSome then l ++ [m] else l), m'.Valid) ∧ ApiReach R.inner) := by
    intro Q R l m v hm ⟨h1, h2, h3, h4, h5⟩ e
    rw [position_make_move] at e
    rcases make_move_ok (reach_ok h5) hm with ⟨_, q', e', he⟩ | ⟨_, e'⟩ <;> rw [e'] at e <;> cases e
    · refine ⟨h1, by simp [h2], ?_, ?_, .step h5 (.make_move hm e')⟩
      · simp only [Option.isSome_some, if_true]
        rw [replay_append p _ l m h3, replay, e']; rfl
      · intro m' hm'
        simp only [Option.isSome_some, if_true, List.mem_append, List.mem_singleton] at hm'
        rcases hm' with hm' | rfl
        · exact h4 _ hm'
        · exact hm
    · exact ⟨h1, by simp [h2], by simpa using h3, by simpa using h4, h5⟩
  induction h with
  | start => exact ⟨rfl, rfl, rfl, by simp, hp⟩
  | make_move h hm e ih => exact step _ _ _ _ _ hm ih e
  | @make_compact_move l Q R m c v h hm hc e ih =>
    obtain ⟨c', hc', henc⟩ := CompactMove.ofMove_ok hm
    rw [hc] at hc'; cases hc'
    simp only [Position.make_compact_move, CompactMove.toMove_of_encodes hm henc, Res.bind_ok] at e
    cases hr : Q.make_move m with
    | ok x =>
      obtain ⟨R', v'⟩ := x
      rw [hr] at e
      cases e
      exact step _ _ _ _ _ hm ih hr
    | panic => rw [hr] at e; cases e
    | ub => rw [hr] at e; cases e

/-- C33: `last_move` is the last of `moves`, or the initial position's own last move. -/
theorem C33_last_move (p : PartialPosition) (hp : ApiReach p) (l : List Move) (Q : Position)
    (h : Position.From p l Q) :
    Q.last_move = match l.getLast? with
      | some m => .ok (some m)
      | none => p.get_last_move := by
  obtain ⟨_, _, h3, h4, _⟩ := C33_replay p hp l Q h
  simp only [Position.last_move, Position.get_inner] at *
  rcases List.eq_nil_or_concat l with rfl | ⟨l', m, rfl⟩
  · rw [replay] at h3; cases h3; rfl
  · rw [List.concat_eq_append] at *
    rw [List.getLast?_append]
    simp only [List.getLast?_singleton, Option.some_or]
    have aux : ∀ (l : List Move) (p : PartialPosition), p.Ok → (∀ x ∈ l ++ [m], x.Valid) →
        p.replay (l ++ [m]) = .ok (some Q.inner) → Q.inner.get_last_move = .ok (some m) := by
      intro l
      induction l with
      | nil =>
        intro p ok hv e
        have hm : m.Valid := hv m (by simp)
        rw [List.nil_append, replay] at e
        rcases make_move_ok ok hm with ⟨_, q', e', he⟩ | ⟨_, e'⟩ <;> rw [e'] at e <;> cases e
        obtain ⟨c, hof, henc, hlast⟩ := he.last
        have hlc : Q.inner.last_compact_move = some c := by
          have := CompactMove.ne_zero_of_encodes hm henc
          simp [last_compact_move, hlast, OptionCompactMove.ofOption, OptionCompactMove.toOption, this]
        simp only [get_last_move, hlc, CompactMove.toMove_of_encodes hm henc, Res.bind_ok,
          Res.pure_eq]
      | cons a l ih =>
        intro p ok hv e
        have ha : a.Valid := hv a (by simp)
        rw [List.cons_append, replay] at e
        rcases make_move_ok ok ha with ⟨_, q', e', he⟩ | ⟨_, e'⟩ <;> rw [e'] at e
        · simp only [Res.bind_ok, Option.isSome_some, if_true] at e
          exact ih q' he.ok (fun x hx => hv x (by simp at hx ⊢; exact .inr hx)) e
        · cases e
    exact aux l' p (reach_ok hp) h4 h3

/-- C33: the deprecated editing methods of `Position` break the correspondence (finding): after
`piece_set` the inner position is no longer the replay of the (empty) move list. -/
theorem C33_deprecated_refuted : ∃ Q R : Position, Position.startpos = .ok Q ∧
    Q.piece_set (Square.at 7 7) none = .ok R ∧ R.get_moves = [] ∧
    R.initial_position.replay R.get_moves ≠ .ok (some R.get_inner) := by
  obtain ⟨q, e, hq⟩ := piece_set_ok sp0_ok (s := Square.at 7 7) (by decide) (o := none) (by simp)
  refine ⟨Position.arbitrary_position sp0, ⟨sp0, q, []⟩, ?_, ?_, rfl, ?_⟩
  · simp only [Position.startpos, startpos_ok, Res.bind_ok, Res.pure_eq]
  · simp only [Position.piece_set, Position.arbitrary_position, e, Res.bind_ok, Res.pure_eq]
  · simp only [Position.initial_position, Position.get_moves, Position.get_inner, replay, ne_eq,
      Res.ok.injEq, Option.some.injEq]
    intro e
    have h1 : sp0.cell (Square.at 7 7).idx0 = some (Piece.mk' .Pawn .Black) := by decide +kernel
    have h2 := hq.cell (Square.at 7 7).idx0 (by decide)
    rw [if_pos rfl, ← e, h1] at h2; cases h2

/-- Non-vacuity: one accepted and one rejected move. -/
example : ∃ Q, Position.From sp0 [.Normal (Square.at 7 7) (Square.at 7 6) false] Q ∧
    Q.get_moves.length = 1 := by
  have h1 : sp0.cell (Square.at 7 7).idx0 = some (Piece.mk' .Pawn .Black) ∧
    sp0.cell (Square.at 7 6).idx0 = none ∧ sp0.side = .Black := by decide +kernel
  rcases make_move_ok sp0_ok (m := .Normal (Square.at 7 7) (Square.at 7 6) false) (by decide) with
    ⟨_, q, e, _⟩ | ⟨h, _⟩
  · have e1 : (Position.arbitrary_position sp0).make_move
        (.Normal (Square.at 7 7) (Square.at 7 6) false) =
        .ok (⟨sp0, q, [.Normal (Square.at 7 7) (Square.at 7 6) false]⟩, some ()) := by
      simp [Position.make_move, Position.arbitrary_position, e]
    have h2 := Position.From.make_move (.start (p := sp0)) (by decide) e1
    have hq := (from_ok sp0_ok (.accept (l := []) .start (by decide) e))
    rcases make_move_ok hq (m := .Drop (Piece.mk' .King .White) (Square.at 5 5)) (by decide) with
      ⟨⟨k, hk, hx, _⟩, _⟩ | ⟨_, e2⟩
    · have := (Piece.mk'_inj hx).1; subst this; exact hk.elim
    · have e3 : (⟨sp0, q, [.Normal (Square.at 7 7) (Square.at 7 6) false]⟩ : Position).make_move
          (.Drop (Piece.mk' .King .White) (Square.at 5 5)) =
          .ok (⟨sp0, q, [.Normal (Square.at 7 7) (Square.at 7 6) false]⟩, none) := by
        simp [Position.make_move, e2]
      exact ⟨_, Position.From.make_move h2 (by decide) e3, rfl⟩
  · exact absurd ⟨.Pawn, by rw [h1.2.2]; exact h1.1, .inl h1.2.1, by simp⟩ h

/-! ### C34 -/

/-- C34: `make_compact_move` is `make_move`, for every position whatsoever. -/
theorem C34_compact (p : PartialPosition) (m : Move) (hm : m.Valid) (c : CompactMove)
    (hc : CompactMove.ofMove m = .ok c) :
    p.make_compact_move c = (do let (q, r) ← p.make_move m; return (q, r.isSome)) := by
  obtain ⟨c', hc', henc⟩ := CompactMove.ofMove_ok hm
  rw [hc] at hc'; cases hc'
  exact make_compact_of_encodes p hm henc

/-- C34 for `Position`. -/
theorem C34_compact_position (Q : Position) (m : Move) (hm : m.Valid) (c : CompactMove)
    (hc : CompactMove.ofMove m = .ok c) :
    Q.make_compact_move c = (do let (R, r) ← Q.make_move m; return (R, r.isSome)) := by
  obtain ⟨c', hc', henc⟩ := CompactMove.ofMove_ok hm
  rw [hc] at hc'; cases hc'
  simp only [Position.make_compact_move, CompactMove.toMove_of_encodes hm henc, Res.bind_ok]

/-- C34: every valid compact move is the encoding of one valid move, so C34 covers all of
them; and conversely. -/
theorem C34_all (c : CompactMove) (hc : c.Valid) : ∃ m : Move, m.Valid ∧ CompactMove.ofMove m = .ok c := by
  obtain ⟨m, hm, henc⟩ := hc
  obtain ⟨c', hc', henc'⟩ := CompactMove.ofMove_ok hm
  exact ⟨m, hm, by rw [hc', CompactMove.encodes_inj henc henc']⟩

/-- Non-vacuity: both verdicts occur. -/
example : (∃ c q, CompactMove.ofMove (.Normal (Square.at 7 7) (Square.at 7 6) false) = .ok c ∧
      sp0.make_compact_move c = .ok (q, true)) ∧
    (∃ c, CompactMove.ofMove (.Normal (Square.at 7 7) (Square.at 7 6) true) = .ok c ∧
      sp0.make_move (.Normal (Square.at 7 7) (Square.at 7 6) true) ≠ .ok (sp0, none) ∧
      sp0.make_compact_move c ≠ .ok (sp0, false)) := by
  have h1 : sp0.cell (Square.at 7 7).idx0 = some (Piece.mk' .Pawn .Black) ∧
    sp0.cell (Square.at 7 6).idx0 = none ∧ sp0.side = .Black := by decide +kernel
  have acc : ∀ pr, sp0.Acc (.Normal (Square.at 7 7) (Square.at 7 6) pr) := fun pr =>
    ⟨.Pawn, by rw [h1.2.2]; exact h1.1, .inl h1.2.1, fun _ => ⟨_, rfl⟩⟩
  constructor
  · obtain ⟨c, hc, henc⟩ := CompactMove.ofMove_ok (m := .Normal (Square.at 7 7) (Square.at 7 6) false)
      (by decide)
    rcases make_move_ok sp0_ok (m := .Normal (Square.at 7 7) (Square.at 7 6) false) (by decide) with
      ⟨_, q, e, _⟩ | ⟨h, _⟩
    · refine ⟨c, q, hc, ?_⟩
      rw [C34_compact sp0 _ (by decide) c hc, e]; rfl
    · exact absurd (acc _) h
  · obtain ⟨c, hc, henc⟩ := CompactMove.ofMove_ok (m := .Normal (Square.at 7 7) (Square.at 7 6) true)
      (by decide)
    rcases make_move_ok sp0_ok (m := .Normal (Square.at 7 7) (Square.at 7 6) true) (by decide) with
      ⟨_, q, e, _⟩ | ⟨h, _⟩
    · refine ⟨c, hc, by rw [e]; simp, ?_⟩
      rw [C34_compact sp0 _ (by decide) c hc, e]; simp
    · exact absurd (acc _) h

/-! ### C35 -/

/-- C35: `startpos` succeeds and shows the standard starting array. -/
theorem C35_board : ∃ p, startpos = .ok p ∧
    (∀ f r, 1 ≤ f ∧ f ≤ 9 → 1 ≤ r ∧ r ≤ 9 → p.piece_at (Square.at f r) = .ok (diagramAt f r)) ∧
    p.side_to_move = .Black ∧ p.get_ply = 1 ∧ p.get_last_move = .ok none ∧
    p.last_compact_move = none ∧
    (∀ c k, k.InHand → p.hand (Piece.mk' k c) = .ok (some 0)) ∧
    p.king_position .Black = .ok (some (Square.at 5 9)) ∧
    p.king_position .White = .ok (some (Square.at 5 1)) := by
  refine ⟨sp0, startpos_ok, ?_, by decide +kernel, by decide +kernel, ?_, by decide +kernel, ?_, ?_, ?_⟩
  · have key : ∀ f < 9, ∀ r < 9, (Square.at (f + 1) (r + 1)).Valid ∧
        sp0.cell (Square.at (f + 1) (r + 1)).idx0 = diagramAt (f + 1) (r + 1) := by decide +kernel
    intro f r hf hr
    obtain ⟨a, rfl⟩ : ∃ a, f = a + 1 := ⟨f - 1, by omega⟩
    obtain ⟨b, rfl⟩ : ∃ b, r = b + 1 := ⟨r - 1, by omega⟩
    obtain ⟨h1, h2⟩ := key a (by omega) b (by omega)
    rw [piece_at_ok sp0 h1, h2]
  · have : sp0.last_compact_move = none := by decide +kernel
    simp only [get_last_move, this]
  · intro c k hk
    rw [hand_ok, Hand.count_ok, dif_pos hk]
    have : ∀ c, sp0.handOf c = Hand.new := by decide +kernel
    rw [this, Hand.cell_new]
  · rw [king_position_ok]; decide +kernel
  · rw [king_position_ok]; decide +kernel

/-- C35: the precomputed player bitboards are those of the diagram. -/
theorem C35_bitboards : ∃ b w, STARTPOS_BLACK_BB = .ok b ∧ STARTPOS_WHITE_BB = .ok w ∧
    ∀ f r, 1 ≤ f ∧ f ≤ 9 → 1 ≤ r ∧ r ≤ 9 →
      (b.Mem (Square.at f r) ↔ ∃ k, diagramAt f r = some (Piece.mk' k .Black)) ∧
      (w.Mem (Square.at f r) ↔ ∃ k, diagramAt f r = some (Piece.mk' k .White)) := by
  have t1 : ∀ d, @STARTPOS_BLACK_BB ⟨d⟩ = .ok (sp0.playerBB .Black) ∧
      @STARTPOS_WHITE_BB ⟨d⟩ = .ok (sp0.playerBB .White) := by decide +kernel
  have t2 := profile_ind (motive := fun P => @STARTPOS_BLACK_BB P = .ok (sp0.playerBB .Black) ∧
      @STARTPOS_WHITE_BB P = .ok (sp0.playerBB .White)) (fun d => t1 d) P
  refine ⟨_, _, t2.1, t2.2, fun f r hf hr => ?_⟩
  obtain ⟨p, hp, h, _⟩ := C35_board
  rw [reach_of_startpos hp] at h
  have hv : (Square.at f r).Valid := by
    have key : ∀ f < 9, ∀ r < 9, (Square.at (f + 1) (r + 1)).Valid := by decide
    obtain ⟨a, rfl⟩ : ∃ a, f = a + 1 := ⟨f - 1, by omega⟩
    obtain ⟨b, rfl⟩ : ∃ b, r = b + 1 := ⟨r - 1, by omega⟩
    exact key a (by omega) b (by omega)
  have hi := Square.idx0_lt hv
  have hc := h f r hf hr
  rw [piece_at_ok sp0 hv] at hc
  rw [Bitboard.mem_iff _ hv, Bitboard.mem_iff _ hv, sp0_ok.player_bit _ _ hi,
    sp0_ok.player_bit _ _ hi, Res.ok.inj hc]
  exact ⟨Iff.rfl, Iff.rfl⟩

/-- C35: `Default` for all position types is the starting position, with no moves. -/
theorem C35_default : ∃ p, startpos = .ok p ∧ Position.startpos = .ok ⟨p, p, []⟩ ∧
    Position.default = .ok ⟨p, p, []⟩ ∧
    (∃ g, Game.default = .ok g ∧ g.position = ⟨p, p, []⟩ ∧ g.get_resolution = .ok none) ∧
    (∃ g, PartialGame.default = .ok g ∧ g.position = p ∧ g.get_resolution = .ok none) := by
  have aux : ∀ p, startpos = .ok p → Position.startpos = .ok ⟨p, p, []⟩ ∧
    Position.default = .ok ⟨p, p, []⟩ ∧
    (∃ g, Game.default = .ok g ∧ g.position = ⟨p, p, []⟩ ∧ g.get_resolution = .ok none) ∧
    (∃ g, PartialGame.default = .ok g ∧ g.position = p ∧ g.get_resolution = .ok none) := by
    intro p e
    refine ⟨?_, ?_, ⟨⟨⟨p, p, []⟩, OptionGameResolution.default⟩, ?_, rfl, rfl⟩,
      ⟨⟨p, OptionGameResolution.default⟩, ?_, rfl, rfl⟩⟩ <;>
    simp [Position.startpos, Position.default, Game.default, PartialGame.default, e,
      Position.arbitrary_position]
  exact ⟨sp0, startpos_ok, aux sp0 startpos_ok⟩

/-- C35: `empty` is empty. -/
theorem C35_empty : (∀ s : Square, s.Valid → empty.piece_at s = .ok none) ∧
    empty.side_to_move = .Black ∧ empty.get_ply = 1 ∧ empty.last_compact_move = none ∧
    (∀ c k, k.InHand → empty.hand (Piece.mk' k c) = .ok (some 0)) ∧
    (∀ c, empty.king_position c = .ok none) := by
  refine ⟨fun s hs => by rw [piece_at_ok _ hs, cell_empty], rfl, rfl, rfl, ?_, ?_⟩
  · intro c k hk
    rw [hand_ok, Hand.count_ok, dif_pos hk]
    have : ∀ c, empty.handOf c = Hand.new := by decide +kernel
    rw [this, Hand.cell_new]
  · intro c; rw [king_position_ok]; cases c <;> rfl

/-- Non-vacuity: the diagram distinguishes the two bishops' squares. -/
example : diagramAt 8 8 = some (Piece.mk' .Bishop .Black) ∧
    diagramAt 2 2 = some (Piece.mk' .Bishop .White) ∧ diagramAt 5 5 = none := by decide

end ShogiCore
