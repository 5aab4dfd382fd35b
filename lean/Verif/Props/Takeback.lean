import Verif.Spec.Takeback
import Verif.Props.Edit
import Verif.Props.Wire

/- C74: taking moves back with the setters. -/

set_option linter.unusedSectionVars false

namespace ShogiCore
open PartialPosition

variable [P : Profile]

/-! ### Positions alike but for the last move -/

theorem alike_iff {p q : PartialPosition} : p.AlikeButLast q ↔
    (∀ i < 81, p.cell i = q.cell i) ∧ (∀ c, p.handOf c = q.handOf c) ∧ p.side = q.side ∧
      p.ply = q.ply ∧ ∀ c, p.kingOf c = q.kingOf c := by
  constructor
  · intro h
    refine ⟨fun i hi => ?_, fun c => ?_, h.side, h.ply, fun c => ?_⟩
    · have hv := Square.ofIdx_valid hi
      have e := h.board _ hv
      rw [piece_at_ok p hv, piece_at_ok q hv, Square.idx0_ofIdx hi] at e
      exact Res.ok.inj e
    · have e := h.hands c
      rw [hand_of_a_player_ok, hand_of_a_player_ok] at e
      exact Res.ok.inj e
    · have e := h.king c
      rw [king_position_ok, king_position_ok] at e
      exact king_inj (Res.ok.inj e)
  · rintro ⟨h1, h2, h3, h4, h5⟩
    refine ⟨fun s hs => ?_, fun c => ?_, h3, h4, fun c => ?_⟩
    · rw [piece_at_ok p hs, piece_at_ok q hs, h1 _ (Square.idx0_lt hs)]
    · rw [hand_of_a_player_ok, hand_of_a_player_ok, h2]
    · rw [king_position_ok, king_position_ok, h5]

theorem PartialPosition.AlikeButLast.refl (p : PartialPosition) : p.AlikeButLast p :=
  ⟨fun _ _ => rfl, fun _ => rfl, rfl, rfl, fun _ => rfl⟩

theorem PartialPosition.AlikeButLast.symm {p q : PartialPosition} (h : p.AlikeButLast q) : q.AlikeButLast p :=
  ⟨fun s hs => (h.board s hs).symm, fun c => (h.hands c).symm, h.side.symm, h.ply.symm,
    fun c => (h.king c).symm⟩

theorem PartialPosition.AlikeButLast.trans {p q r : PartialPosition} (h : p.AlikeButLast q) (h' : q.AlikeButLast r) :
    p.AlikeButLast r :=
  ⟨fun s hs => (h.board s hs).trans (h'.board s hs), fun c => (h.hands c).trans (h'.hands c),
    h.side.trans h'.side, h.ply.trans h'.ply, fun c => (h.king c).trans (h'.king c)⟩

theorem PartialPosition.AlikeButLast.agree {p q : PartialPosition} (h : p.AlikeButLast q) : p.Agree q := by
  refine ⟨h.board, fun k c hk => ?_, h.side, h.ply⟩
  have e := h.hands c
  rw [hand_of_a_player_ok, hand_of_a_player_ok] at e
  rw [hand_ok, hand_ok, Res.ok.inj e]

theorem PartialPosition.AlikeButLast.tracked {p q : PartialPosition} (h : p.AlikeButLast q) (ht : p.Tracked) : q.Tracked := by
  intro c s hs e
  rw [← h.king c]
  exact ht c s hs (by rw [h.board s hs]; exact e)

theorem PartialPosition.AlikeButLast.acc {p q : PartialPosition} (h : p.AlikeButLast q) {m : Move} (hm : m.Valid)
    (ha : p.Acc m) : q.Acc m := by
  obtain ⟨h1, h2, h3, _⟩ := alike_iff.1 h
  cases m with
  | Normal s t pr =>
    obtain ⟨k, a1, a2, a3⟩ := ha
    rw [h1 _ (Square.idx0_lt hm.1)] at a1
    rw [h1 _ (Square.idx0_lt hm.2)] at a2
    rw [h3] at a1 a2
    exact ⟨k, a1, a2, a3⟩
  | Drop x t =>
    obtain ⟨k, hk, a1, a2, a3⟩ := ha
    have ht : t.Valid := hm.2
    rw [h1 _ (Square.idx0_lt ht)] at a2
    rw [h2, h3] at a3
    rw [h3] at a1
    exact ⟨k, hk, a1, a2, a3⟩

/-- What an accepted move leads to does not depend on the move before. -/
theorem eff_alike {p p' q q' : PartialPosition} (h : p.AlikeButLast p') {m : Move} (hm : m.Valid)
    (e : p.Eff m q) (e' : p'.Eff m q') : q = q' := by
  obtain ⟨h1, h2, h3, h4, h5⟩ := alike_iff.1 h
  obtain ⟨c, hc, _, hl⟩ := e.last
  obtain ⟨c', hc', _, hl'⟩ := e'.last
  rw [hc] at hc'; cases hc'
  have eb := e.body
  have eb' := e'.body
  cases m with
  | Normal s t pr =>
    obtain ⟨k, k', a1, a2, a3, a4, a5, a6⟩ := eb
    obtain ⟨l, l', b1, b2, b3, b4, b5, b6⟩ := eb'
    have is := Square.idx0_lt hm.1
    have it := Square.idx0_lt hm.2
    rw [h1 _ is, h3, b1] at a1
    obtain rfl := (Piece.mk'_inj (Option.some.inj a1)).1
    have hkk : k' = l' := by
      cases pr
      · simp only [Bool.false_eq_true, if_false] at a2 b2; rw [a2, b2]
      · simp only [if_true] at a2 b2; rw [a2] at b2; exact Option.some.inj b2
    subst hkk
    refine e.ok.ext e'.ok (by rw [e.side, e'.side, h3]) (by rw [e.ply, e'.ply, h4]) ?_ ?_
      (hl.trans hl'.symm) ?_
    · intro d
      rcases a6 with ⟨a6, a7⟩ | ⟨x, hx, a6, a7⟩ <;> rcases b6 with ⟨b6, b7⟩ | ⟨y, hy, b6, b7⟩
      · rw [a7, b7, h2]
      · rw [h1 _ it, b6] at a6; cases a6
      · rw [h1 _ it, b6] at a6; cases a6
      · rw [h1 _ it, b6, h3] at a6
        obtain rfl := (Piece.mk'_inj (Option.some.inj a6)).1
        rw [a7, b7, h2, h3]
    · intro i hi
      rw [a4 i hi, b4 i hi, h3, h1 i hi]
    · intro d
      rw [a5, b5, h3, h5]
  | Drop x t =>
    obtain ⟨k, hk, a1, a2, a3, a4, a5, a6⟩ := eb
    obtain ⟨l, hl2, b1, b2, b3, b4, b5, b6⟩ := eb'
    rw [a1, h3] at b1
    obtain rfl := (Piece.mk'_inj b1).1
    refine e.ok.ext e'.ok (by rw [e.side, e'.side, h3]) (by rw [e.ply, e'.ply, h4]) ?_ ?_
      (hl.trans hl'.symm) ?_
    · intro d; rw [a6, b6, h2, h3]
    · intro i hi; rw [a4 i hi, b4 i hi, h1 i hi]
    · intro d; rw [a5, b5, h5]

/-- C74: in two positions that are alike but for the last move the same moves are accepted, and
they lead to the same position. -/
theorem C74_again (p p' : PartialPosition) (hp : ApiReach p) (hp' : ApiReach p')
    (h : p.AlikeButLast p') (m : Move) (hm : m.Valid) :
    (∃ q, p.make_move m = .ok (q, some ()) ∧ p'.make_move m = .ok (q, some ())) ∨
    (p.make_move m = .ok (p, none) ∧ p'.make_move m = .ok (p', none)) := by
  rcases make_move_ok (reach_ok hp) hm with ⟨a, q, e, f⟩ | ⟨a, e⟩ <;>
    rcases make_move_ok (reach_ok hp') hm with ⟨a', q', e', f'⟩ | ⟨a', e'⟩
  · obtain rfl := eff_alike h hm f f'
    exact .inl ⟨q, e, e'⟩
  · exact absurd (h.acc hm a) a'
  · exact absurd (h.symm.acc hm a') a
  · exact .inr ⟨e, e'⟩

/-! ### Taking back -/

theorem undo_normal {p : PartialPosition} {s t : Square} (hs : s.Valid) (ht : t.Valid) (pr : Bool) :
    p.undo (.Normal s t pr) = .ok [.piece t (p.cell t.idx0), .piece s (p.cell s.idx0),
      .hand p.side (p.handOf p.side), .side p.side, .ply p.ply] := by
  simp only [undo, piece_at_ok p hs, piece_at_ok p ht, hand_of_a_player_ok, Res.bind_ok, Res.pure_eq]
  rfl

theorem undo_drop (p : PartialPosition) (x : Piece) (t : Square) :
    p.undo (.Drop x t) = .ok [.piece t none, .hand p.side (p.handOf p.side), .side p.side,
      .ply p.ply] := by
  simp only [undo, hand_of_a_player_ok, Res.bind_ok, Res.pure_eq]
  rfl

/-- Running the noted calls, also when the last move has been forgotten. -/
theorem takeback_core {p q q' : PartialPosition} (hp : ApiReach p) (hq' : ApiReach q')
    (ht : p.Tracked) (hn : p.get_ply ≠ 0) {m : Move} (hm : m.Valid) {u : List Edit}
    (hu : p.undo m = .ok u) (e : p.make_move m = .ok (q, some ())) (h : q'.AlikeButLast q) :
    ∃ r, runEdits q' u = .ok r ∧ ApiReach r ∧ r.AlikeButLast p ∧
      r.get_last_move = q'.get_last_move := by
  have ok := reach_ok hp
  have f : p.Eff m q := by
    rcases make_move_ok ok hm with ⟨_, q1, e1, f⟩ | ⟨_, e1⟩
    · rw [e1] at e; cases e; exact f
    · rw [e1] at e; cases e
  obtain ⟨S, hS⟩ := C62_answers q' hq'
  obtain ⟨h1, h2, h3, h4, h5⟩ := alike_iff.1 h
  have sb : ∀ s : Square, s.Valid → S.board s = q.cell s.idx0 := by
    intro s hs
    have := hS.board s hs
    rw [piece_at_ok q' hs, h1 _ (Square.idx0_lt hs)] at this
    exact (Res.ok.inj this).symm
  have sh : ∀ c, S.hands c = q.handOf c := by
    intro c
    have := hS.hands c
    rw [hand_of_a_player_ok, h2] at this
    exact (Res.ok.inj this).symm
  have sk : ∀ c, S.king c = (q.kingOf c).toOption := by
    intro c
    have := hS.king c
    rw [king_position_ok, h5] at this
    exact (Res.ok.inj this).symm
  have hn : ¬ p.ply = 0#16 := hn
  cases m with
  | Normal s t pr =>
    obtain ⟨hs, ht'⟩ := hm
    rw [undo_normal hs ht'] at hu
    cases hu
    obtain ⟨k, k', a1, a2, a3, a4, a5, a6⟩ := f.body
    have hst : s ≠ t := fun e => a3 (by rw [e])
    obtain ⟨r, e1, hr, ha⟩ := C63_program q' hq' S hS [.piece t (p.cell t.idx0),
      .piece s (p.cell s.idx0), .hand p.side (p.handOf p.side), .side p.side, .ply p.ply] (by
        intro x hx
        simp only [List.mem_cons, List.not_mem_nil, or_false] at hx
        rcases hx with rfl | rfl | rfl | rfl | rfl
        · exact ⟨ht', fun x hx => ok.cells _ x hx⟩
        · exact ⟨hs, fun x hx => ok.cells _ x hx⟩
        · exact ok.hand _
        · trivial
        · trivial)
    refine ⟨r, e1, hr, ⟨?_, ?_, ?_, ?_, ?_⟩, ?_⟩
    · intro v hv
      rw [ha.board v hv, piece_at_ok p hv]
      simp only [Setup.after, lastWrite, Edit.atSquare, List.reverse_cons, List.reverse_nil,
        List.nil_append, List.cons_append, List.findSome?_cons, List.findSome?_nil]
      by_cases c1 : s = v
      · simp [c1]
      · by_cases c2 : t = v
        · simp [c1, c2]
        · simp only [c1, c2, if_false, Option.getD_none]
          rw [sb v hv, a4 _ (Square.idx0_lt hv),
            if_neg (fun e => c2 (Square.idx0_inj hv ht' e).symm),
            if_neg (fun e => c1 (Square.idx0_inj hv hs e).symm)]
    · intro c
      rw [ha.hands c, hand_of_a_player_ok]
      simp only [Setup.after, lastWrite, Edit.atHand, List.reverse_cons, List.reverse_nil,
        List.nil_append, List.cons_append, List.findSome?_cons, List.findSome?_nil]
      by_cases c1 : p.side = c
      · simp [c1]
      · simp only [c1, if_false, Option.getD_none]
        rw [sh]
        rcases a6 with ⟨_, a6⟩ | ⟨l, hl, _, a6⟩
        · rw [a6]
        · rw [a6, if_neg (fun e => c1 e.symm)]
    · rw [ha.side]; rfl
    · rw [ha.ply]
      simp [Setup.after, lastWrite, Edit.atPly, hn, get_ply]
    · intro c
      rw [ha.king c, king_position_ok]
      simp only [Setup.after, lastWrite, Edit.kingTo, List.reverse_cons, List.reverse_nil,
        List.nil_append, List.cons_append, List.findSome?_cons, List.findSome?_nil]
      by_cases c1 : p.cell s.idx0 = some (Piece.mk' .King c)
      · have := ht c s hs (by rw [piece_at_ok p hs, c1])
        rw [king_position_ok] at this
        simp [c1, Res.ok.inj this]
      · by_cases c2 : p.cell t.idx0 = some (Piece.mk' .King c)
        · rcases a6 with ⟨a6, _⟩ | ⟨l, hl, a6, _⟩
          · rw [a6] at c2; cases c2
          · rw [a6] at c2
            obtain ⟨rfl, _⟩ := Piece.mk'_inj (Option.some.inj c2)
            exact absurd hl (by decide)
        · simp only [c1, c2, if_false, Option.none_or]
          rw [sk, a5, if_neg]
          rintro ⟨rfl, rfl⟩
          apply c1
          rw [a1]
          cases pr
          · simp only [Bool.false_eq_true, if_false] at a2; rw [a2]
          · simp only [if_true] at a2
            exact absurd a2 ((by decide : ∀ k : PieceKind, k.promote ≠ some .King) k)
    · rw [ha.last, hS.last]; rfl
  | Drop x t =>
    have ht' : t.Valid := hm.2
    rw [undo_drop] at hu
    cases hu
    obtain ⟨k, hk, a1, a2, a3, a4, a5, a6⟩ := f.body
    obtain ⟨r, e1, hr, ha⟩ := C63_program q' hq' S hS [.piece t none,
      .hand p.side (p.handOf p.side), .side p.side, .ply p.ply] (by
        intro x hx
        simp only [List.mem_cons, List.not_mem_nil, or_false] at hx
        rcases hx with rfl | rfl | rfl | rfl
        · exact ⟨ht', fun x hx => by cases hx⟩
        · exact ok.hand _
        · trivial
        · trivial)
    refine ⟨r, e1, hr, ⟨?_, ?_, ?_, ?_, ?_⟩, ?_⟩
    · intro v hv
      rw [ha.board v hv, piece_at_ok p hv]
      simp only [Setup.after, lastWrite, Edit.atSquare, List.reverse_cons, List.reverse_nil,
        List.nil_append, List.cons_append, List.findSome?_cons, List.findSome?_nil]
      by_cases c2 : t = v
      · subst c2; simp [a2]
      · simp only [c2, if_false, Option.getD_none]
        rw [sb v hv, a4 _ (Square.idx0_lt hv), if_neg (fun e => c2 (Square.idx0_inj hv ht' e).symm)]
    · intro c
      rw [ha.hands c, hand_of_a_player_ok]
      simp only [Setup.after, lastWrite, Edit.atHand, List.reverse_cons, List.reverse_nil,
        List.nil_append, List.cons_append, List.findSome?_cons, List.findSome?_nil]
      by_cases c1 : p.side = c
      · simp [c1]
      · simp only [c1, if_false, Option.getD_none]
        rw [sh, a6, if_neg (fun e => c1 e.symm)]
    · rw [ha.side]; rfl
    · rw [ha.ply]
      simp [Setup.after, lastWrite, Edit.atPly, hn, get_ply]
    · intro c
      rw [ha.king c, king_position_ok]
      simp only [Setup.after, lastWrite, Edit.kingTo, List.reverse_cons, List.reverse_nil,
        List.nil_append, List.cons_append, List.findSome?_cons, List.findSome?_nil]
      rw [if_neg (by simp)]
      simp only [Option.none_or]
      rw [sk, a5]
    · rw [ha.last, hS.last]; rfl

/-- C74: the calls noted before an accepted move restore board, hands, side to move, move number
and the answers of `king_position`, without failing; only the last move is now `m`. -/
theorem C74_takeback (p q : PartialPosition) (hp : ApiReach p) (ht : p.Tracked)
    (hn : p.get_ply ≠ 0) (m : Move) (hm : m.Valid) (e : p.make_move m = .ok (q, some ())) :
    ∃ u r, p.undo m = .ok u ∧ runEdits q u = .ok r ∧ ApiReach r ∧ r.AlikeButLast p ∧
      r.get_last_move = .ok (some m) := by
  have hq : ApiReach q := .step hp (.make_move hm e)
  obtain ⟨u, hu⟩ : ∃ u, p.undo m = .ok u := by
    cases m with
    | Normal s t pr => exact ⟨_, undo_normal hm.1 hm.2 pr⟩
    | Drop x t => exact ⟨_, undo_drop p x t⟩
  obtain ⟨r, e1, hr, ha, hl⟩ := takeback_core hp hq ht hn hm hu e (AlikeButLast.refl q)
  exact ⟨u, r, hu, e1, hr, ha, hl.trans (C29_effect p q hp m hm e).last⟩

/-- Positions that agree have the same SFEN. -/
theorem alike_sfen {p q : PartialPosition} (hp : ApiReach p) (hq : ApiReach q)
    (h : p.AlikeButLast q) : p.to_sfen_owned = q.to_sfen_owned := by
  have hb : p.boardChunks = q.boardChunks := by
    have key : ∀ r, 1 ≤ r ∧ r ≤ 9 → p.rankCells r = q.rankCells r := by
      intro r hr
      unfold rankCells
      apply List.map_congr_left
      intro f hf
      have hf' : 1 ≤ f ∧ f ≤ 9 := by simp at hf; omega
      rw [h.board _ (at_idx hf' hr).1]
    simp only [boardChunks, List.flatMap_cons, List.flatMap_nil, key 1 (by omega),
      key 2 (by omega), key 3 (by omega), key 4 (by omega), key 5 (by omega), key 6 (by omega),
      key 7 (by omega), key 8 (by omega), key 9 (by omega)]
  rw [to_sfen_owned_ok (reach_ok hp), to_sfen_owned_ok (reach_ok hq)]
  simp only [sfenChunks, hb, (alike_iff.1 h).2.1, h.side, h.ply]

/-- C74: whoever looks at the SFEN or at any bitboard cannot see that a move was made and taken
back. -/
theorem C74_invisible (p r : PartialPosition) (hp : ApiReach p) (hr : ApiReach r)
    (h : r.AlikeButLast p) : r.to_sfen_owned = p.to_sfen_owned ∧
    (∀ x, r.piece_bitboard x = p.piece_bitboard x) ∧
    (∀ c, r.player_bitboard c = p.player_bitboard c) ∧
    r.occupied_bitboard = p.occupied_bitboard ∧ r.vacant_bitboard = p.vacant_bitboard := by
  have key : r = { p with last_move := r.last_move } := by
    obtain ⟨h1, h2, h3, h4, h5⟩ := alike_iff.1 h
    have okp := reach_ok hp
    have okr := reach_ok hr
    refine okr.ext ⟨okp.cells, okp.player, okp.player_bit, okp.kind, okp.kind_bit, okp.hand,
      okr.last, okp.king⟩ h3 h4 h2 h1 rfl h5
  refine ⟨alike_sfen hr hp h, ?_⟩
  rw [key]
  exact ⟨fun _ => rfl, fun _ => rfl, rfl, rfl⟩

/-- C74: but `==` sees it, unless the last move before was the same. -/
theorem C74_refuted_eq (p r : PartialPosition) (hp : ApiReach p) (hr : ApiReach r)
    (h : r.AlikeButLast p) (m : Move) (hl : r.get_last_move = .ok (some m)) :
    r.eq p = true ↔ p.get_last_move = .ok (some m) := by
  rw [PartialPosition.eq_iff]
  constructor
  · rintro rfl; exact hl
  · intro e
    obtain ⟨h1, h2, h3, h4, h5⟩ := alike_iff.1 h
    exact (reach_ok hr).ext (reach_ok hp) h3 h4 h2 h1
      (same_last (reach_ok hr) (reach_ok hp) (hl.trans e.symm)) h5

/-! ### Searching -/

theorem tracked_move {p q : PartialPosition} (hp : ApiReach p) (ht : p.Tracked) {m : Move}
    (hm : m.Valid) (e : p.make_move m = .ok (q, some ())) : q.Tracked := by
  have f : p.Eff m q := by
    rcases make_move_ok (reach_ok hp) hm with ⟨_, q1, e1, f⟩ | ⟨_, e1⟩
    · rw [e1] at e; cases e; exact f
    · rw [e1] at e; cases e
  have ht' : ∀ c (s : Square), s.Valid → p.cell s.idx0 = some (Piece.mk' .King c) →
      (p.kingOf c).toOption = some s := by
    intro c s hs h
    have := ht c s hs (by rw [piece_at_ok p hs, h])
    rw [king_position_ok] at this
    exact Res.ok.inj this
  intro c v hv h
  rw [piece_at_ok q hv] at h
  have h := Res.ok.inj h
  rw [king_position_ok]
  refine congrArg Res.ok ?_
  cases m with
  | Normal s t pr =>
    obtain ⟨k, k', a1, a2, a3, a4, a5, a6⟩ := f.body
    rw [a4 _ (Square.idx0_lt hv)] at h
    rw [a5]
    by_cases c1 : v.idx0 = t.idx0
    · rw [if_pos c1] at h
      obtain ⟨e1, e2⟩ := Piece.mk'_inj (Option.some.inj h)
      rw [if_pos ⟨e1, e2.symm⟩, OptionSquare.toOption_ofOption_some hm.2,
        Square.idx0_inj hv hm.2 c1]
    · rw [if_neg c1] at h
      split at h
      · cases h
      · next c2 =>
        have := ht' c v hv h
        rw [if_neg]
        · exact this
        · rintro ⟨rfl, rfl⟩
          have hk : k = .King := by
            cases pr
            · simp only [Bool.false_eq_true, if_false] at a2; exact a2.symm
            · simp only [if_true] at a2
              exact absurd a2 ((by decide : ∀ k : PieceKind, k.promote ≠ some .King) k)
          rw [hk] at a1
          have e2 := ht' _ s hm.1 a1
          rw [this] at e2
          exact c2 (congrArg Square.idx0 (Option.some.inj e2))
  | Drop x t =>
    obtain ⟨k, hk, a1, a2, a3, a4, a5, a6⟩ := f.body
    rw [a4 _ (Square.idx0_lt hv)] at h
    rw [a5]
    split at h
    · rw [a1] at h
      obtain ⟨rfl, _⟩ := Piece.mk'_inj (Option.some.inj h)
      exact absurd hk (by decide)
    · exact ht' c v hv h

/-- The invariant: every entry of the stack belongs to the position before the move, up to the last
move. -/
inductive Line (p₀ : PartialPosition) : List Move → List (List Edit) → PartialPosition → Prop
  | start {p} : ApiReach p → p.Tracked → p.AlikeButLast p₀ → Line p₀ [] [] p
  | make {l us p q q' m u} : Line p₀ l us p → m.Valid → p.get_ply ≠ 0 → p.undo m = .ok u →
      p.make_move m = .ok (q, some ()) → ApiReach q' → q'.AlikeButLast q →
      Line p₀ (l ++ [m]) (u :: us) q'

theorem Line.reach {p₀ p : PartialPosition} {l us} (h : Line p₀ l us p) : ApiReach p := by
  cases h <;> assumption

theorem Line.tracked {p₀ p : PartialPosition} {l us} (h : Line p₀ l us p) : p.Tracked := by
  induction h with
  | start _ ht _ => exact ht
  | make h hm _ _ e _ ha ih => exact ha.symm.tracked (tracked_move h.reach ih hm e)

theorem Line.alike {p₀ p r : PartialPosition} {l us} (h : Line p₀ l us p) (hr : ApiReach r)
    (ha : r.AlikeButLast p) : Line p₀ l us r := by
  cases h with
  | start h1 h2 h3 => exact .start hr (ha.symm.tracked h2) (ha.trans h3)
  | make h1 h2 h3 h4 h5 h6 h7 => exact .make h1 h2 h3 h4 h5 hr (ha.trans h7)

theorem Line.back {p₀ p : PartialPosition} {l us m u} (h : Line p₀ (l ++ [m]) (u :: us) p) :
    ∃ r, runEdits p u = .ok r ∧ Line p₀ l us r ∧ r.get_last_move = p.get_last_move := by
  generalize hl : l ++ [m] = l' at h
  generalize hu : u :: us = us' at h
  cases h with
  | start => simp at hl
  | make h1 h2 h3 h4 h5 h6 h7 =>
    obtain ⟨rfl, e⟩ := List.append_inj' hl rfl
    cases e
    cases hu
    obtain ⟨r, e1, hr, ha, e2⟩ := takeback_core h1.reach h6 h1.tracked h3 h2 h4 h5 h7
    exact ⟨r, e1, h1.alike hr ha, e2⟩

theorem search_line {p₀ p : PartialPosition} (hp : ApiReach p₀) (ht : p₀.Tracked) {l us}
    (h : Search p₀ l us p) : Line p₀ l us p := by
  induction h with
  | start => exact .start hp ht (AlikeButLast.refl _)
  | make _ hm hn hu e ih =>
    exact .make ih hm hn hu e (.step ih.reach (.make_move hm e)) (AlikeButLast.refl _)
  | reject _ hm e ih =>
    rcases make_move_ok (reach_ok ih.reach) hm with ⟨_, q1, e1, f⟩ | ⟨_, e1⟩
    · rw [e1] at e; cases e
    · rw [e1] at e; cases e; exact ih
  | back _ e ih =>
    obtain ⟨r, e1, h, _⟩ := ih.back
    rw [e1] at e; cases e; exact h

theorem line_from {p₀ p : PartialPosition} (hp : ApiReach p₀) {l us} (h : Line p₀ l us p) :
    ∃ q, Game.From p₀ l q ∧ p.AlikeButLast q := by
  induction h with
  | start _ _ ha => exact ⟨p₀, .start, ha⟩
  | make h hm _ _ e _ ha ih =>
    obtain ⟨q1, hf, hq⟩ := ih
    rcases C74_again _ _ h.reach (from_reach hp hf) hq _ hm with ⟨q2, e1, e2⟩ | ⟨e1, _⟩
    · rw [e1] at e; cases e
      exact ⟨_, .accept hf hm e2, ha⟩
    · rw [e1] at e; cases e

/-- C74: a program that makes moves and takes them back, in any order and number, is always in the
position that the moves of its present line lead to (as a program would see it that copies
positions instead), except that the last move may be wrong. -/
theorem C74_search (p₀ p : PartialPosition) (hp : ApiReach p₀) (ht : p₀.Tracked) (l : List Move)
    (us : List (List Edit)) (h : Search p₀ l us p) :
    us.length = l.length ∧ ∃ q, Game.From p₀ l q ∧ p.AlikeButLast q := by
  refine ⟨?_, line_from hp (search_line hp ht h)⟩
  generalize search_line hp ht h = hl
  clear h
  induction hl with
  | start => rfl
  | make _ _ _ _ _ _ _ ih => simp [ih]

/-- C74: at every node it enters by a move it is in exactly that position, also for `==`; and it
has the same moves to choose from as if it had copied. -/
theorem C74_node (p₀ p : PartialPosition) (hp : ApiReach p₀) (ht : p₀.Tracked) (l : List Move)
    (us : List (List Edit)) (h : Search p₀ l us p) (m : Move) (hm : m.Valid) :
    ∃ q, Game.From p₀ l q ∧
      ((∃ r, p.make_move m = .ok (r, some ()) ∧ q.make_move m = .ok (r, some ())) ∨
       (p.make_move m = .ok (p, none) ∧ q.make_move m = .ok (q, none))) := by
  have hl := search_line hp ht h
  obtain ⟨q, hf, ha⟩ := line_from hp hl
  exact ⟨q, hf, C74_again p q hl.reach (from_reach hp hf) ha m hm⟩

/-- The calls noted, run from the latest to the first. -/
def runAll (p : PartialPosition) : List (List Edit) → Res PartialPosition
  | [] => .ok p
  | u :: us => do runAll (← runEdits p u) us

/-- C74: from anywhere the program can get back to where it started; no call of a setter fails. -/
theorem C74_unwind (p₀ p : PartialPosition) (hp : ApiReach p₀) (ht : p₀.Tracked) (l : List Move)
    (us : List (List Edit)) (h : Search p₀ l us p) :
    ∃ r, runAll p us = .ok r ∧ ApiReach r ∧ r.AlikeButLast p₀ ∧
      r.get_last_move = p.get_last_move := by
  have hl := search_line hp ht h
  clear h
  induction us generalizing l p with
  | nil =>
    cases hl with
    | start h1 h2 h3 => exact ⟨p, rfl, h1, h3, rfl⟩
  | cons u us ih =>
    obtain ⟨l', m, rfl⟩ : ∃ l' m, l = l' ++ [m] := by cases hl; exact ⟨_, _, rfl⟩
    obtain ⟨r, e1, h1, e2⟩ := hl.back
    obtain ⟨r', e3, h3, h4, h5⟩ := ih r l' h1
    exact ⟨r', by rw [runAll, e1, Res.bind_ok, e3], h3, h4, h5.trans e2⟩

/-- C74: positions of games can be searched this way. -/
theorem C74_games (p : PartialPosition) (h : GameReach p) : p.Tracked := by
  intro c s hs e
  obtain ⟨t, ht, hk⟩ := C31_games p h c
  rw [hk, (ht.2 s hs).1 e]

/-- C74: and the move number is 0 in a game only after 65535 moves, 131071 moves, and so on. -/
theorem C74_games_ply (p q : PartialPosition) (l : List Move) (hp : startpos = .ok p)
    (h : Game.From p l q) : q.get_ply = 0 ↔ l.length % 65536 = 65535 := by
  have h3 := (C32_bookkeeping _ _ l (.startpos hp) h).2
  have h1 : p.get_ply = 1 := by
    rw [startpos_ok] at hp
    rw [← Res.ok.inj hp]
    exact (by decide +kernel : sp0.ply = 1)
  rw [h1] at h3
  have h4 : (1 : U16).toNat = 1 := rfl
  rw [← BitVec.toNat_inj]
  have h5 : (0 : U16).toNat = 0 := rfl
  omega

/-! ### What goes wrong otherwise -/

theorem edits_valid {p : PartialPosition} (hp : ApiReach p) {m : Move} (hm : m.Valid)
    {u : List Edit} (hu : p.undo m = .ok u) : ∀ x ∈ u, x.Valid := by
  have ok := reach_ok hp
  intro x hx
  cases m with
  | Normal s t pr =>
    rw [undo_normal hm.1 hm.2] at hu
    cases hu
    simp only [List.mem_cons, List.not_mem_nil, or_false] at hx
    rcases hx with rfl | rfl | rfl | rfl | rfl
    · exact ⟨hm.2, fun x hx => ok.cells _ x hx⟩
    · exact ⟨hm.1, fun x hx => ok.cells _ x hx⟩
    · exact ok.hand _
    · trivial
    · trivial
  | Drop x t =>
    rw [undo_drop] at hu
    cases hu
    simp only [List.mem_cons, List.not_mem_nil, or_false] at hx
    rcases hx with rfl | rfl | rfl | rfl
    · exact ⟨hm.2, fun x hx => by cases hx⟩
    · exact ok.hand _
    · trivial
    · trivial

/-- C74: with the move number 0 (after 65535) the setter refuses to go back: the number stays 1. -/
theorem C74_refuted_ply (p q : PartialPosition) (hp : ApiReach p) (hn : p.get_ply = 0) (m : Move)
    (hm : m.Valid) (e : p.make_move m = .ok (q, some ())) :
    ∃ u r, p.undo m = .ok u ∧ runEdits q u = .ok r ∧ r.get_ply = 1 := by
  have hq : ApiReach q := .step hp (.make_move hm e)
  obtain ⟨u, hu⟩ : ∃ u, p.undo m = .ok u := by
    cases m with
    | Normal s t pr => exact ⟨_, undo_normal hm.1 hm.2 pr⟩
    | Drop x t => exact ⟨_, undo_drop p x t⟩
  obtain ⟨S, hS⟩ := C62_answers q hq
  obtain ⟨r, e1, hr, ha⟩ := C63_program q hq S hS u (edits_valid hp hm hu)
  refine ⟨u, r, hu, e1, ?_⟩
  have hp1 : q.get_ply = 1 := by
    have := (C29_effect p q hp m hm e).ply
    rw [hn] at this
    exact BitVec.eq_of_toNat_eq this
  have hn : p.ply = 0#16 := hn
  rw [ha.ply]
  cases m with
  | Normal s t pr =>
    rw [undo_normal hm.1 hm.2] at hu
    cases hu
    simp [Setup.after, lastWrite, Edit.atPly, hn]
    rw [← hS.ply]; exact hp1
  | Drop x t =>
    rw [undo_drop] at hu
    cases hu
    simp [Setup.after, lastWrite, Edit.atPly, hn]
    rw [← hS.ply]; exact hp1

/-- C74: a king that `king_position` does not know of is known after it has moved and moved back. -/
theorem C74_refuted_king (p q : PartialPosition) (hp : ApiReach p) (s t : Square) (pr : Bool)
    (hm : Move.Valid (.Normal s t pr))
    (hk : p.piece_at s = .ok (some (Piece.mk' .King p.side_to_move)))
    (e : p.make_move (.Normal s t pr) = .ok (q, some ())) :
    ∃ u r, p.undo (.Normal s t pr) = .ok u ∧ runEdits q u = .ok r ∧
      r.king_position p.side_to_move = .ok (some s) := by
  have hq : ApiReach q := .step hp (.make_move hm e)
  have hu := undo_normal (p := p) hm.1 hm.2 pr
  obtain ⟨S, hS⟩ := C62_answers q hq
  obtain ⟨r, e1, hr, ha⟩ := C63_program q hq S hS _ (edits_valid hp hm hu)
  refine ⟨_, r, hu, e1, ?_⟩
  rw [piece_at_ok p hm.1] at hk
  rw [ha.king]
  simp only [Setup.after, lastWrite, Edit.kingTo, List.reverse_cons, List.reverse_nil,
    List.nil_append, List.cons_append, List.findSome?_cons, Res.ok.inj hk, if_true, Option.some_or]

/-- Non-vacuity: Black's kings on 5i and 4i, of which 4i is remembered. -/
example : ∃ p q r u, ApiReach p ∧ p.get_ply ≠ 0 ∧
    p.make_move (.Normal (Square.at 5 9) (Square.at 5 8) false) = .ok (q, some ()) ∧
    p.undo (.Normal (Square.at 5 9) (Square.at 5 8) false) = .ok u ∧ runEdits q u = .ok r ∧
    p.king_position .Black = .ok (some (Square.at 4 9)) ∧
    r.king_position .Black = .ok (some (Square.at 5 9)) := by
  have hx : ∀ x, some (Piece.mk' .King .Black) = some x → x.Valid := by
    intro x e; cases e; decide
  have h9 : (Square.at 5 9).Valid := by decide
  have h4 : (Square.at 4 9).Valid := by decide
  obtain ⟨p1, e1, h1⟩ := piece_set_ok empty_ok h9 hx
  have r1 : ApiReach p1 := .step .empty (.piece_set h9 hx e1)
  obtain ⟨p, e2, h2⟩ := piece_set_ok (reach_ok r1) h4 hx
  have r2 : ApiReach p := .step r1 (.piece_set h4 hx e2)
  have hside : p.side = .Black := h2.side.trans h1.side
  have hc : p.cell (Square.at 5 9).idx0 = some (Piece.mk' .King .Black) := by
    rw [h2.cell _ (by decide), if_neg (by decide), h1.cell _ (by decide), if_pos rfl]
  have hc' : p.cell (Square.at 5 8).idx0 = none := by
    rw [h2.cell _ (by decide), if_neg (by decide), h1.cell _ (by decide), if_neg (by decide),
      cell_empty]
  have hm : Move.Valid (.Normal (Square.at 5 9) (Square.at 5 8) false) := ⟨by decide, by decide⟩
  have acc : p.Acc (.Normal (Square.at 5 9) (Square.at 5 8) false) :=
    ⟨.King, by rw [hside]; exact hc, .inl hc', by simp⟩
  rcases make_move_ok (reach_ok r2) hm with ⟨_, q, e3, _⟩ | ⟨hn, _⟩
  · obtain ⟨u, r, e4, e5, e6⟩ := C74_refuted_king p q r2 _ _ _ hm
      (by rw [piece_at_ok p h9, hc]; exact congrArg (fun c => Res.ok (some (Piece.mk' .King c))) hside.symm) e3
    refine ⟨p, q, r, u, r2, ?_, e3, e4, e5, ?_, ?_⟩
    · rw [show p.get_ply = 1 from h2.ply.trans h1.ply]; decide
    · rw [king_position_ok, h2.king, if_pos rfl, OptionSquare.toOption_ofOption_some h4]
    · rw [show p.side_to_move = .Black from hside] at e6; exact e6
  · exact absurd acc hn

/-- Non-vacuity: in the starting position 7g7f is made, 3c3d is made and taken back, and 8c8d is
made; the two lines lead to different positions of games. -/
example : ∃ p q₁ u₁ q₂ u₂ r q₃ u₃, PartialPosition.startpos = .ok p ∧
    p.undo (.Normal (Square.at 7 7) (Square.at 7 6) false) = .ok u₁ ∧
    p.make_move (.Normal (Square.at 7 7) (Square.at 7 6) false) = .ok (q₁, some ()) ∧
    q₁.undo (.Normal (Square.at 3 3) (Square.at 3 4) false) = .ok u₂ ∧
    q₁.make_move (.Normal (Square.at 3 3) (Square.at 3 4) false) = .ok (q₂, some ()) ∧
    runEdits q₂ u₂ = .ok r ∧ r.eq q₁ = false ∧
    r.undo (.Normal (Square.at 8 3) (Square.at 8 4) false) = .ok u₃ ∧
    r.make_move (.Normal (Square.at 8 3) (Square.at 8 4) false) = .ok (q₃, some ()) ∧
    Search p [.Normal (Square.at 7 7) (Square.at 7 6) false,
      .Normal (Square.at 8 3) (Square.at 8 4) false] [u₃, u₁] q₃ := by
  have hp : ApiReach sp0 := .startpos startpos_ok
  have h0 : sp0.cell (Square.at 7 7).idx0 = some (Piece.mk' .Pawn .Black) ∧
    sp0.cell (Square.at 7 6).idx0 = none ∧ sp0.cell (Square.at 3 3).idx0 = some (Piece.mk' .Pawn .White) ∧
    sp0.cell (Square.at 3 4).idx0 = none ∧ sp0.cell (Square.at 8 3).idx0 = some (Piece.mk' .Pawn .White) ∧
    sp0.cell (Square.at 8 4).idx0 = none ∧ sp0.side = .Black ∧ sp0.ply = 1 := by decide +kernel
  obtain ⟨b1, b2, b3, b4, b5, b6, b7, b8⟩ := h0
  have m1 : Move.Valid (.Normal (Square.at 7 7) (Square.at 7 6) false) := ⟨by decide, by decide⟩
  have m2 : Move.Valid (.Normal (Square.at 3 3) (Square.at 3 4) false) := ⟨by decide, by decide⟩
  have m3 : Move.Valid (.Normal (Square.at 8 3) (Square.at 8 4) false) := ⟨by decide, by decide⟩
  have acc : sp0.Acc (.Normal (Square.at 7 7) (Square.at 7 6) false) :=
    ⟨.Pawn, by rw [b7]; exact b1, .inl b2, by simp⟩
  rcases make_move_ok (reach_ok hp) m1 with ⟨_, q₁, e1, f1⟩ | ⟨hn, _⟩
  rotate_left
  · exact absurd acc hn
  have r1 : ApiReach q₁ := .step hp (.make_move m1 e1)
  obtain ⟨_, _, _, _, _, a4, _, _⟩ := f1.body
  have s1 : q₁.side = .White := by rw [f1.side, b7]; rfl
  have n1 : q₁.get_ply ≠ 0 := by
    rw [show q₁.get_ply = sp0.ply + 1 from f1.ply, b8]; decide
  have n0 : sp0.get_ply ≠ 0 := by
    rw [show sp0.get_ply = 1 from b8]; decide
  have c1 : ∀ i < 81, i ≠ (Square.at 7 6).idx0 → i ≠ (Square.at 7 7).idx0 → q₁.cell i = sp0.cell i := by
    intro i hi h1 h2
    rw [a4 i hi, if_neg h1, if_neg h2]
  have acc2 : q₁.Acc (.Normal (Square.at 3 3) (Square.at 3 4) false) :=
    ⟨.Pawn, by rw [c1 _ (by decide) (by decide) (by decide), s1]; exact b3,
      .inl (by rw [c1 _ (by decide) (by decide) (by decide)]; exact b4), by simp⟩
  have acc3 : q₁.Acc (.Normal (Square.at 8 3) (Square.at 8 4) false) :=
    ⟨.Pawn, by rw [c1 _ (by decide) (by decide) (by decide), s1]; exact b5,
      .inl (by rw [c1 _ (by decide) (by decide) (by decide)]; exact b6), by simp⟩
  rcases make_move_ok (reach_ok r1) m2 with ⟨_, q₂, e2, f2⟩ | ⟨hn, _⟩
  rotate_left
  · exact absurd acc2 hn
  have t0 : sp0.Tracked := C74_games _ ⟨sp0, [], startpos_ok, .start⟩
  obtain ⟨u₂, r, e3, e4, hr, ha, hl⟩ := C74_takeback q₁ q₂ r1 (tracked_move hp t0 m1 e1) n1 _ m2 e2
  have ne : r.eq q₁ = false := by
    have := C74_refuted_eq q₁ r r1 hr ha _ hl
    rw [(C29_effect sp0 q₁ hp _ m1 e1).last] at this
    cases h : r.eq q₁ with
    | false => rfl
    | true => exact absurd (this.1 h) (by decide)
  rcases make_move_ok (reach_ok hr) m3 with ⟨_, q₃, e5, f3⟩ | ⟨hn, _⟩
  rotate_left
  · exact absurd (ha.symm.acc m3 acc3) hn
  have hn3 : r.get_ply ≠ 0 := by rw [ha.ply]; exact n1
  have w1 := Search.make .start m1 n0 (undo_normal m1.1 m1.2 _) e1
  have w2 := Search.make w1 m2 n1 e3 e2
  have w3 := Search.back w2 e4
  have w4 := Search.make w3 m3 hn3 (undo_normal m3.1 m3.2 _) e5
  exact ⟨sp0, q₁, _, q₂, u₂, r, q₃, _, startpos_ok, undo_normal m1.1 m1.2 _, e1, e3, e2, e4, ne,
    undo_normal m3.1 m3.2 _, e5, w4⟩

/-- A position with the move number 0, in which a move is made and taken back: after
`ply_set(65535)` Black has moved. -/
example : ∃ p q₀ q r u, startpos = .ok p ∧
    (p.ply_set 65535).1.make_move (.Normal (Square.at 7 7) (Square.at 7 6) false) =
      .ok (q₀, some ()) ∧ q₀.get_ply = 0 ∧
    q₀.make_move (.Normal (Square.at 3 3) (Square.at 3 4) false) = .ok (q, some ()) ∧
    q₀.undo (.Normal (Square.at 3 3) (Square.at 3 4) false) = .ok u ∧ runEdits q u = .ok r ∧
    r.get_ply = 1 := by
  have hp : ApiReach (sp0.ply_set 65535).1 := .step (.startpos startpos_ok) .ply
  have h0 : (sp0.ply_set 65535).1.cell (Square.at 7 7).idx0 = some (Piece.mk' .Pawn .Black) ∧
    (sp0.ply_set 65535).1.cell (Square.at 7 6).idx0 = none ∧
    (sp0.ply_set 65535).1.cell (Square.at 3 3).idx0 = some (Piece.mk' .Pawn .White) ∧
    (sp0.ply_set 65535).1.cell (Square.at 3 4).idx0 = none ∧
    (sp0.ply_set 65535).1.side = .Black ∧ (sp0.ply_set 65535).1.ply = 65535 := by decide +kernel
  obtain ⟨b1, b2, b3, b4, b7, b8⟩ := h0
  have m1 : Move.Valid (.Normal (Square.at 7 7) (Square.at 7 6) false) := ⟨by decide, by decide⟩
  have m2 : Move.Valid (.Normal (Square.at 3 3) (Square.at 3 4) false) := ⟨by decide, by decide⟩
  rcases make_move_ok (reach_ok hp) m1 with ⟨_, q₀, e1, f1⟩ | ⟨hn, _⟩
  rotate_left
  · exact absurd ⟨.Pawn, by rw [b7]; exact b1, .inl b2, by simp⟩ hn
  have r1 : ApiReach q₀ := .step hp (.make_move m1 e1)
  obtain ⟨_, _, _, _, _, a4, _, _⟩ := f1.body
  have s1 : q₀.side = .White := by rw [f1.side, b7]; rfl
  have n1 : q₀.get_ply = 0 := by
    rw [show q₀.get_ply = (sp0.ply_set 65535).1.ply + 1 from f1.ply, b8]; decide
  have c1 : ∀ i < 81, i ≠ (Square.at 7 6).idx0 → i ≠ (Square.at 7 7).idx0 →
      q₀.cell i = (sp0.ply_set 65535).1.cell i := by
    intro i hi h1 h2
    rw [a4 i hi, if_neg h1, if_neg h2]
  have acc2 : q₀.Acc (.Normal (Square.at 3 3) (Square.at 3 4) false) :=
    ⟨.Pawn, by rw [c1 _ (by decide) (by decide) (by decide), s1]; exact b3,
      .inl (by rw [c1 _ (by decide) (by decide) (by decide)]; exact b4), by simp⟩
  rcases make_move_ok (reach_ok r1) m2 with ⟨_, q, e2, f2⟩ | ⟨hn, _⟩
  rotate_left
  · exact absurd acc2 hn
  obtain ⟨u, r, h1, h2, h3⟩ := C74_refuted_ply q₀ q r1 n1 _ m2 e2
  exact ⟨sp0, q₀, q, r, u, startpos_ok, e1, n1, e2, h1, h2, h3⟩

end ShogiCore
