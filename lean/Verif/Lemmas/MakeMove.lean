import Verif.Lemmas.Position
import Verif.Spec.Position

set_option linter.unusedSectionVars false

namespace ShogiCore

theorem PieceKind.promote_iff (k k' : PieceKind) : k.promote = some k' ↔ PromotesTo k k' := by
  constructor
  · intro h; cases k <;> cases h <;> constructor
  · rintro ⟨⟩ <;> rfl

theorem PieceKind.base_inHand (k : PieceKind) : k.base.InHand ↔ k ≠ .King := by
  revert k; decide

theorem PieceKind.unpromote_none_of_inHand (k : PieceKind) : k.InHand → k.unpromote = none := by
  revert k; decide

namespace Hand

/-- One more of a kind. -/
def bump (h : Hand) (k : PieceKind) (hk : k.InHand) : Hand := h.setCell k hk (h.cell k hk + 1)
/-- One fewer of a kind. -/
def drop (h : Hand) (k : PieceKind) (hk : k.InHand) : Hand := h.setCell k hk (h.cell k hk - 1)

end Hand

namespace PartialPosition

/-- Replacing a hand. -/
def setHand (p : PartialPosition) (c : Color) (h : Hand) : PartialPosition :=
  { p with hands := p.hands.set c.idx0 h c.idx0_lt }

theorem handOf_setHand (p : PartialPosition) (c d : Color) (h : Hand) :
    (p.setHand c h).handOf d = if c = d then h else p.handOf d := by
  unfold handOf setHand
  simp only [Vector.getElem_set]
  by_cases e : c = d
  · subst e; simp
  · rw [if_neg e, if_neg (fun h => e (Color.idx0_inj h))]

theorem Ok.setHand {p : PartialPosition} (hp : p.Ok) (c : Color) {h : Hand} (hv : h.Valid) :
    (p.setHand c h).Ok := by
  refine hp.update rfl rfl rfl ?_ hp.last hp.king
  intro d; rw [handOf_setHand]; split
  · exact hv
  · exact hp.hand d

variable [P : Profile]

/-! ### The pieces of `make_move` -/

theorem capture_none (p : PartialPosition) (k : PieceKind) (c : Color) {t : Square} (ht : t.Valid)
    (e : p.cell t.idx0 = none) :
    p.make_move_capture (Piece.mk' k c) t = .ok (p, some ()) := by
  simp only [make_move_capture, piece_at_ok p ht, e, Res.bind_ok, Res.pure_eq]

theorem capture_own (p : PartialPosition) (k l : PieceKind) (c : Color) {t : Square} (ht : t.Valid)
    (e : p.cell t.idx0 = some (Piece.mk' l c)) :
    p.make_move_capture (Piece.mk' k c) t = .ok (p, none) := by
  simp only [make_move_capture, piece_at_ok p ht, e, Res.bind_ok, Res.pure_eq, Piece.color_mk',
    if_true]

theorem capture_king (p : PartialPosition) (k : PieceKind) (c : Color) {t : Square} (ht : t.Valid)
    (e : p.cell t.idx0 = some (Piece.mk' .King c.other)) :
    p.make_move_capture (Piece.mk' k c) t = .ok (p, none) := by
  have hc : (c = c.other) = False := by cases c <;> decide
  simp only [make_move_capture, piece_at_ok p ht, e, Res.bind_ok, Res.pure_eq, Piece.color_mk',
    hc, if_false, hand_of_a_player_ok, Piece.piece_kind_mk', PieceKind.unpromote, Hand.added_ok]
  rfl

theorem capture_enemy (p : PartialPosition) (k l : PieceKind) (c : Color) {t : Square} (ht : t.Valid)
    (hl : l.base.InHand) (e : p.cell t.idx0 = some (Piece.mk' l c.other)) :
    p.make_move_capture (Piece.mk' k c) t =
      .ok (p.setHand c ((p.handOf c).bump l.base hl), some ()) := by
  have hc : (c = c.other) = False := by cases c <;> decide
  simp only [make_move_capture, piece_at_ok p ht, e, Res.bind_ok, Res.pure_eq, Piece.color_mk',
    hc, if_false, hand_of_a_player_ok, Piece.piece_kind_mk', Hand.added_ok, hand_assign_ok]
  cases l <;> first | rfl | exact hl.elim

/-- The position after the common tail. -/
theorem finish_ok {p : PartialPosition} (hp : p.Ok) {m : Move} (hm : m.Valid) :
    ∃ q c, p.make_move_finish m = .ok (q, some ()) ∧ q.Ok ∧ c.encodes m ∧ CompactMove.ofMove m = .ok c ∧
      q.last_move = OptionCompactMove.ofOption (some c) ∧ q.side = p.side.other ∧ q.ply = p.ply + 1 ∧
      (∀ i, q.cell i = p.cell i) ∧ (∀ c, q.handOf c = p.handOf c) ∧
      (∀ c, q.kingOf c = p.kingOf c) := by
  obtain ⟨c, h1, h2⟩ := CompactMove.ofMove_ok hm
  refine ⟨{ p with
    last_move := OptionCompactMove.ofOption (some c)
    side := p.side.other
    ply := p.ply + 1 }, c, by simp only [make_move_finish, h1, Res.bind_ok, Color.flip_ok, Res.pure_eq], ?_, h2,
    h1, rfl, rfl, rfl, fun _ => rfl, fun _ => rfl, fun _ => rfl⟩
  refine hp.update rfl rfl rfl hp.hand ?_ hp.king
  intro m' hm'
  have : (OptionCompactMove.ofOption (some c)).toOption = some c := by
    have := CompactMove.ne_zero_of_encodes hm h2
    simp [OptionCompactMove.ofOption, OptionCompactMove.toOption, this]
  have e : some c = some m' := this.symm.trans hm'
  cases e
  exact ⟨m, hm, h2⟩

/-- Acceptance in terms of cells. -/
def Acc (p : PartialPosition) : Move → Prop
  | .Normal s t pr => ∃ k, p.cell s.idx0 = some (Piece.mk' k p.side) ∧
      (p.cell t.idx0 = none ∨ ∃ l, l ≠ .King ∧ p.cell t.idx0 = some (Piece.mk' l p.side.other)) ∧
      (pr = true → ∃ k', k.promote = some k')
  | .Drop x t => ∃ k, ∃ hk : k.InHand, x = Piece.mk' k p.side ∧ p.cell t.idx0 = none ∧
      ((p.handOf p.side).cell k hk).toNat ≠ 0

/-- Effect in terms of cells. -/
structure Eff (p : PartialPosition) (m : Move) (q : PartialPosition) : Prop where
  ok : q.Ok
  side : q.side = p.side.other
  ply : q.ply = p.ply + 1
  last : ∃ c, CompactMove.ofMove m = .ok c ∧ c.encodes m ∧
    q.last_move = OptionCompactMove.ofOption (some c)
  body : match m with
    | .Normal s t pr => ∃ k k', p.cell s.idx0 = some (Piece.mk' k p.side) ∧
        (if pr then k.promote = some k' else k' = k) ∧ s.idx0 ≠ t.idx0 ∧
        (∀ i < 81, q.cell i = if i = t.idx0 then some (Piece.mk' k' p.side)
          else if i = s.idx0 then none else p.cell i) ∧
        (∀ c, q.kingOf c = if k' = .King ∧ c = p.side then .ofOption (some t) else p.kingOf c) ∧
        ((p.cell t.idx0 = none ∧ ∀ c, q.handOf c = p.handOf c) ∨
         (∃ l, ∃ hl : l.base.InHand, p.cell t.idx0 = some (Piece.mk' l p.side.other) ∧
           ∀ c, q.handOf c = if c = p.side then (p.handOf c).bump l.base hl else p.handOf c))
    | .Drop x t => ∃ k, ∃ hk : k.InHand, x = Piece.mk' k p.side ∧ p.cell t.idx0 = none ∧
        ((p.handOf p.side).cell k hk).toNat ≠ 0 ∧
        (∀ i < 81, q.cell i = if i = t.idx0 then some x else p.cell i) ∧
        (∀ c, q.kingOf c = p.kingOf c) ∧
        (∀ c, q.handOf c = if c = p.side then (p.handOf c).drop k hk else p.handOf c)

/-- The tail of a normal move, after the capture step. -/
theorem normal_tail {p0 p : PartialPosition} (hp : p.Ok) {s t : Square} (hs : s.Valid) (ht : t.Valid)
    (pr : Bool) (k' : PieceKind) (hcell : ∀ i, p.cell i = p0.cell i)
    (hking : ∀ c, p.kingOf c = p0.kingOf c) (hside : p.side = p0.side) (hply : p.ply = p0.ply) :
    ∃ q, (do
        let self ← p.piece_set s none
        let self ← self.piece_set t (some (Piece.mk' k' p0.side))
        self.make_move_finish (.Normal s t pr)) = .ok (q, some ()) ∧ q.Ok ∧
      q.side = p0.side.other ∧ q.ply = p0.ply + 1 ∧
      (∃ c, CompactMove.ofMove (.Normal s t pr) = .ok c ∧ c.encodes (.Normal s t pr) ∧
        q.last_move = OptionCompactMove.ofOption (some c)) ∧
      (∀ i < 81, q.cell i = if i = t.idx0 then some (Piece.mk' k' p0.side)
          else if i = s.idx0 then none else p0.cell i) ∧
      (∀ c, q.kingOf c = if k' = .King ∧ c = p0.side then .ofOption (some t) else p0.kingOf c) ∧
      (∀ c, q.handOf c = p.handOf c) := by
  obtain ⟨q1, e1, h1⟩ := piece_set_ok hp hs (o := none) (by simp)
  obtain ⟨q2, e2, h2⟩ := piece_set_ok h1.ok ht (o := some (Piece.mk' k' p0.side))
    (by rintro x ⟨⟩; exact Piece.mk'_valid _ _)
  obtain ⟨q, c, e3, hq, henc, hof, hlast, hqside, hqply, hqc, hqh, hqk⟩ :=
    finish_ok h2.ok (m := .Normal s t pr) ⟨hs, ht⟩
  refine ⟨q, ?_, hq, ?_, ?_, ⟨c, hof, henc, hlast⟩, ?_, ?_, ?_⟩
  · rw [e1]; simp only [Res.bind_ok]; rw [e2]; simp only [Res.bind_ok]; exact e3
  · rw [hqside, h2.side, h1.side, hside]
  · rw [hqply, h2.ply, h1.ply, hply]
  · intro i hi; rw [hqc, h2.cell i hi, h1.cell i hi, hcell]
  · intro d
    rw [hqk, h2.king, h1.king, hking]
    simp only [Option.some.injEq, reduceCtorEq, if_false]
    by_cases e : k' = .King ∧ d = p0.side
    · rw [if_pos e, if_pos]; rw [e.1, e.2]
    · rw [if_neg e, if_neg]
      intro h; exact e ⟨(Piece.mk'_inj h).1, (Piece.mk'_inj h).2.symm⟩
  · intro d; rw [hqh]; unfold handOf; simp only [h2.hands, h1.hands]

theorem make_move_ok {p : PartialPosition} (hp : p.Ok) {m : Move} (hm : m.Valid) :
    (p.Acc m ∧ ∃ q, p.make_move m = .ok (q, some ()) ∧ p.Eff m q) ∨
    (¬ p.Acc m ∧ p.make_move m = .ok (p, none)) := by
  cases m with
  | Normal s t pr =>
    obtain ⟨hs, ht⟩ := hm
    rcases hp.cases s.idx0 with e | ⟨k, c, e⟩
    · right
      refine ⟨?_, by simp only [make_move, piece_at_ok p hs, e, Res.bind_ok, Res.pure_eq]⟩
      rintro ⟨k, hk, _⟩; rw [e] at hk; cases hk
    by_cases hc : c = p.side
    rotate_left
    · right
      refine ⟨?_, ?_⟩
      · rintro ⟨k', hk, _⟩; rw [e] at hk; exact hc (Piece.mk'_inj (Option.some.inj hk)).2
      · simp only [make_move, piece_at_ok p hs, e, Res.bind_ok, Res.pure_eq, Piece.color_mk', hc,
          ne_eq, not_false_eq_true, if_true]
    subst hc
    -- the target piece
    have hstart : p.make_move (.Normal s t pr) = (do
        match ← (if pr then (Piece.mk' k p.side).promote else .ok (some (Piece.mk' k p.side))) with
        | none => return (p, none)
        | some target_piece =>
          match ← p.make_move_capture (Piece.mk' k p.side) t with
          | (self, none) => return (self, none)
          | (self, some ()) =>
            let self ← self.piece_set s none
            let self ← self.piece_set t (some target_piece)
            self.make_move_finish (.Normal s t pr)) := by
      simp only [make_move, piece_at_ok p hs, e, Res.bind_ok, Piece.color_mk', ne_eq,
        not_true_eq_false, if_false]
      rfl
    have htp : (pr = true ∧ k.promote = none ∧
        (if pr then (Piece.mk' k p.side).promote else .ok (some (Piece.mk' k p.side))) = .ok none) ∨
      ∃ k', (if pr then k.promote = some k' else k' = k) ∧
        (if pr then (Piece.mk' k p.side).promote else .ok (some (Piece.mk' k p.side))) =
          .ok (some (Piece.mk' k' p.side)) := by
      cases pr
      · exact .inr ⟨k, by simp, by simp⟩
      · cases hk : k.promote with
        | none => exact .inl ⟨rfl, rfl, by simp [hk]⟩
        | some k' => exact .inr ⟨k', by simp, by simp [hk]⟩
    rcases htp with ⟨hpr, hk, htp⟩ | ⟨k', hk', htp⟩
    · right
      refine ⟨?_, ?_⟩
      · rintro ⟨l, hl, _, h3⟩
        rw [e] at hl
        obtain ⟨k', h3⟩ := h3 hpr
        rw [← (Piece.mk'_inj (Option.some.inj hl)).1, hk] at h3; cases h3
      · rw [hstart, htp]; rfl
    rw [htp] at hstart
    simp only [Res.bind_ok] at hstart
    have hacc : ∀ (_ : p.cell t.idx0 = none ∨
        ∃ l, l ≠ .King ∧ p.cell t.idx0 = some (Piece.mk' l p.side.other)),
        p.Acc (.Normal s t pr) := by
      intro h
      refine ⟨k, e, h, fun hpr => ⟨k', ?_⟩⟩
      simpa only [hpr, if_true] using hk'
    rcases hp.cases t.idx0 with et | ⟨l, d, et⟩
    · -- quiet move
      left
      refine ⟨hacc (.inl et), ?_⟩
      rw [hstart, capture_none p k p.side ht et]
      obtain ⟨q, h1, h2, h3, h4, h5, h6, h7, h8⟩ :=
        normal_tail (p0 := p) hp hs ht pr k' (fun _ => rfl) (fun _ => rfl) rfl rfl
      refine ⟨q, h1, h2, h3, h4, h5, k, k', e, hk', ?_, h6, h7, .inl ⟨et, h8⟩⟩
      intro hst; rw [hst, et] at e; cases e
    by_cases hd : d = p.side
    · -- own piece
      subst hd
      right
      refine ⟨?_, by rw [hstart, capture_own p k l p.side ht et]; rfl⟩
      rintro ⟨_, _, h | ⟨l', _, h⟩, _⟩
      · rw [et] at h; cases h
      · rw [et] at h; exact Color.other_ne _ (Piece.mk'_inj (Option.some.inj h)).2.symm
    have hd : d = p.side.other := by cases d <;> cases h : p.side <;> simp_all [Color.other]
    subst hd
    by_cases hl : l = .King
    · subst hl
      right
      refine ⟨?_, by rw [hstart, capture_king p k p.side ht et]; rfl⟩
      rintro ⟨_, _, h | ⟨l', hl', h⟩, _⟩
      · rw [et] at h; cases h
      · rw [et] at h; exact hl' (Piece.mk'_inj (Option.some.inj h)).1.symm
    left
    refine ⟨hacc (.inr ⟨l, hl, et⟩), ?_⟩
    have hb := (PieceKind.base_inHand l).2 hl
    rw [hstart, capture_enemy p k l p.side ht hb et]
    obtain ⟨q, h1, h2, h3, h4, h5, h6, h7, h8⟩ :=
      normal_tail (p0 := p) (hp.setHand p.side (Hand.setCell_valid (hp.hand p.side) l.base hb _))
        hs ht pr k' (fun _ => rfl) (fun _ => rfl) rfl rfl
    refine ⟨q, h1, h2, h3, h4, h5, k, k', e, hk', ?_, h6, h7, .inr ⟨l, hb, et, ?_⟩⟩
    · intro hst; rw [hst, et] at e
      exact Color.other_ne _ (Piece.mk'_inj (Option.some.inj e)).2
    · intro c; rw [h8, handOf_setHand]
      by_cases hc : c = p.side
      · subst hc; simp [Hand.bump]
      · rw [if_neg hc, if_neg (fun h => hc h.symm)]
  | Drop x t =>
    obtain ⟨hx, ht⟩ := hm
    obtain ⟨k, c, rfl⟩ := Piece.exists_mk' hx
    by_cases hc : c = p.side
    rotate_left
    · right
      refine ⟨?_, ?_⟩
      · rintro ⟨k', _, hk, _⟩; exact hc (Piece.mk'_inj hk).2
      · simp only [make_move, Res.bind_ok, Res.pure_eq, Piece.color_mk', hc,
          ne_eq, not_false_eq_true, if_true]
    subst hc
    by_cases hu : k.unpromote = none
    rotate_left
    · right
      refine ⟨?_, ?_⟩
      · rintro ⟨k', hk', hk, _⟩
        exact hu ((Piece.mk'_inj hk).1 ▸ PieceKind.unpromote_none_of_inHand k' hk')
      · obtain ⟨l, hl⟩ := Option.ne_none_iff_exists'.1 hu
        simp only [make_move, Res.bind_ok, Res.pure_eq, Piece.color_mk', ne_eq, not_true_eq_false,
          if_false, Piece.unpromote_mk', hl, Option.map_some, Option.isSome_some, if_true]
    rcases hp.cases t.idx0 with et | ⟨l, d, et⟩
    rotate_left
    · right
      refine ⟨?_, ?_⟩
      · rintro ⟨k', hk', hk, h, _⟩; rw [et] at h; cases h
      · simp only [make_move, Res.bind_ok, Res.pure_eq, Piece.color_mk', ne_eq, not_true_eq_false,
          if_false, Piece.unpromote_mk', hu, Option.map_none, Option.isSome_none, piece_at_ok p ht,
          et, Option.isSome_some, if_true, Bool.false_eq_true]
    by_cases hk : k.InHand
    rotate_left
    · right
      refine ⟨?_, ?_⟩
      · rintro ⟨k', hk', h, _⟩; exact hk ((Piece.mk'_inj h).1 ▸ hk')
      · simp only [make_move, Res.bind_ok, Res.pure_eq, Piece.color_mk', ne_eq, not_true_eq_false,
          if_false, Piece.unpromote_mk', hu, Option.map_none, Option.isSome_none, piece_at_ok p ht,
          et, Bool.false_eq_true, hand_of_a_player_ok, Piece.piece_kind_mk', Hand.removed_ok,
          dif_neg hk]
    by_cases hn : ((p.handOf p.side).cell k hk).toNat = 0
    · right
      refine ⟨?_, ?_⟩
      · rintro ⟨k', hk', h, _, h'⟩
        have := (Piece.mk'_inj h).1; subst this; exact h' hn
      · simp only [make_move, Res.bind_ok, Res.pure_eq, Piece.color_mk', ne_eq, not_true_eq_false,
          if_false, Piece.unpromote_mk', hu, Option.map_none, Option.isSome_none, piece_at_ok p ht,
          et, Bool.false_eq_true, hand_of_a_player_ok, Piece.piece_kind_mk', Hand.removed_ok,
          dif_pos hk, hn, if_true]
    left
    refine ⟨⟨k, hk, rfl, et, hn⟩, ?_⟩
    have hstart : p.make_move (.Drop (Piece.mk' k p.side) t) = (do
        let self ← (p.setHand p.side ((p.handOf p.side).drop k hk)).piece_set t
          (some (Piece.mk' k p.side))
        self.make_move_finish (.Drop (Piece.mk' k p.side) t)) := by
      simp only [make_move, Res.bind_ok, Piece.color_mk', ne_eq, not_true_eq_false,
        if_false, Piece.unpromote_mk', hu, Option.map_none, Option.isSome_none, piece_at_ok p ht,
        et, Bool.false_eq_true, hand_of_a_player_ok, Piece.piece_kind_mk', Hand.removed_ok,
        dif_pos hk, hn, hand_assign_ok]
      rfl
    have hp' := hp.setHand p.side (Hand.setCell_valid (hp.hand p.side) k hk
      ((p.handOf p.side).cell k hk - 1))
    obtain ⟨q2, e2, h2⟩ := piece_set_ok hp' ht (o := some (Piece.mk' k p.side))
      (by rintro x ⟨⟩; exact Piece.mk'_valid _ _)
    obtain ⟨q, c, e3, hq, henc, hof, hlast, hqside, hqply, hqc, hqh, hqk⟩ :=
      finish_ok h2.ok (m := .Drop (Piece.mk' k p.side) t) ⟨hx, ht⟩
    refine ⟨q, ?_, hq, ?_, ?_, ⟨c, hof, henc, hlast⟩, k, hk, rfl, et, hn, ?_, ?_, ?_⟩
    · rw [hstart, show (p.setHand p.side ((p.handOf p.side).drop k hk)).piece_set t _ = _ from e2]
      exact e3
    · rw [hqside, h2.side]; rfl
    · rw [hqply, h2.ply]; rfl
    · intro i hi; rw [hqc, h2.cell i hi]; rfl
    · intro d; rw [hqk, h2.king]
      rw [if_neg]; · rfl
      intro h
      have := (Piece.mk'_inj (Option.some.inj h)).1
      subst this; exact hk
    · intro d
      have : q2.handOf d = (p.setHand p.side ((p.handOf p.side).drop k hk)).handOf d := by
        unfold handOf; simp only [h2.hands]; rfl
      rw [hqh, this, handOf_setHand]
      by_cases hc : d = p.side
      · subst hc; simp
      · rw [if_neg hc, if_neg (fun h => hc h.symm)]

end PartialPosition
end ShogiCore
