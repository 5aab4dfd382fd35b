import Verif.Props.RawCall

/- C94: raw words passed from C as moves. -/

set_option linter.unusedSectionVars false

namespace ShogiCore
open PartialPosition

variable [P : Profile]

/-! ### Codes of one piece -/

/-- Codes of the same piece, which is no king unless they are equal. -/
def Like (x y : Piece) : Prop :=
  x = y ∨ (x.to_parts = y.to_parts ∧ ∃ k c, y = Piece.mk' k c ∧ k ≠ .King)

/-- The same for cells. -/
def OptLike : Option Piece → Option Piece → Prop
  | none, none => True
  | some x, some y => Like x y
  | _, _ => False

/-- The same for bytes. -/
def ByteLike (a b : U8) : Prop :=
  a = b ∨ (LoosePieceByte a.toNat ∧ a.toNat % 16 ≠ 8 ∧ b.toNat = docPiece a.toNat)

omit P in
theorem Like.parts {x y : Piece} (h : Like x y) : x.to_parts = y.to_parts := by
  rcases h with rfl | ⟨h, _⟩
  · rfl
  · exact h

omit P in
theorem Like.king {x y : Piece} (h : Like x y) (c : Color) :
    x = Piece.mk' .King c ↔ y = Piece.mk' .King c := by
  rcases h with rfl | ⟨h, k, d, rfl, hk⟩
  · rfl
  · constructor
    · rintro rfl
      rw [Piece.to_parts_mk', Piece.to_parts_mk'] at h
      cases h; exact absurd rfl hk
    · intro e
      have := congrArg Piece.to_parts e
      rw [Piece.to_parts_mk', Piece.to_parts_mk'] at this
      cases this; exact absurd rfl hk

omit P in
theorem parts_loose {v : U8} {k : PieceKind} {c : Color} (h : Piece.to_parts ⟨v⟩ = .ok (k, c)) :
    LoosePieceByte v.toNat ∧ (Piece.mk' k c).val.toNat = docPiece v.toNat ∧
      (k ≠ .King ↔ v.toNat % 16 ≠ 8) := by
  have t : ∀ n < 256, ∀ (k : PieceKind) (c : Color), Piece.to_parts ⟨BitVec.ofNat 8 n⟩ = .ok (k, c) →
      LoosePieceByte n ∧ (Piece.mk' k c).val.toNat = docPiece n ∧ (k ≠ .King ↔ n % 16 ≠ 8) := by
    decide +kernel
  exact at_byte (p := fun n v => ∀ (k : PieceKind) (c : Color), Piece.to_parts ⟨v⟩ = .ok (k, c) →
      LoosePieceByte n ∧ (Piece.mk' k c).val.toNat = docPiece n ∧ (k ≠ .King ↔ n % 16 ≠ 8)) t v k c h

theorem loose_parts {v : U8} (h : LoosePieceByte v.toNat) :
    ∃ k c, Piece.to_parts ⟨v⟩ = .ok (k, c) ∧ (Piece.mk' k c).val.toNat = docPiece v.toNat ∧
      (v.toNat % 16 ≠ 8 → k ≠ .King) := by
  rcases parts_out ⟨v⟩ with ⟨_, ⟨k, c⟩, e⟩ | ⟨h', _⟩
  · exact ⟨k, c, e, (parts_loose e).2.1, (parts_loose e).2.2.2⟩
  · exact absurd h h'

theorem ByteLike.opt {a b : OptionPiece} (h : ByteLike a.val b.val) : OptLike a.toOption b.toOption := by
  obtain ⟨a⟩ := a
  obtain ⟨b⟩ := b
  rcases h with h | ⟨h1, h2, h3⟩
  · cases h
    cases e : OptionPiece.toOption ⟨a⟩ with
    | none => trivial
    | some x => exact .inl rfl
  · obtain ⟨k, c, e1, e2, e3⟩ := loose_parts h1
    have hb : (⟨b⟩ : Piece) = Piece.mk' k c := by
      have : b = (Piece.mk' k c).val := BitVec.eq_of_toNat_eq (by rw [e2]; exact h3)
      rw [this]
    have ha0 : a ≠ 0 := by
      rintro rfl; exact absurd h1 (by decide)
    have hb0 : b ≠ 0 := by
      rintro rfl
      have := Piece.mk'_valid k c
      rw [← hb] at this
      exact absurd this (by decide)
    unfold OptionPiece.toOption
    simp only [if_neg ha0, if_neg hb0]
    exact .inr ⟨by rw [e1, hb, Piece.to_parts_mk'], k, c, hb, e3 h2⟩

omit P in
theorem OptLike.byte {a b : Option Piece} (h : OptLike a b) :
    ByteLike (OptionPiece.ofOption a).val (OptionPiece.ofOption b).val := by
  cases a <;> cases b <;> try exact h.elim
  · exact .inl rfl
  · rename_i x y
    rcases h with rfl | ⟨h, k, c, rfl, hk⟩
    · exact .inl rfl
    · rw [Piece.to_parts_mk'] at h
      obtain ⟨h1, h2, h3⟩ := parts_loose h
      exact .inr ⟨h1, h3.1 hk, h2⟩

/-! ### The two positions run in step -/

namespace PartialPosition.Alike

variable {p q : PartialPosition}

omit P in
theorem refl (p : PartialPosition) : p.Alike p :=
  ⟨rfl, rfl, rfl, rfl, rfl, rfl, fun _ _ => .inl rfl, .inl rfl⟩

theorem cell (h : p.Alike q) (i : Nat) : OptLike (p.cell i) (q.cell i) := by
  unfold PartialPosition.cell
  split
  · rename_i hi; exact ByteLike.opt (h.board i hi)
  · trivial

theorem piece_at (h : p.Alike q) {s : Square} (hs : s.Valid) :
    Res.Rel OptLike (p.piece_at s) (q.piece_at s) := by
  rw [piece_at_ok p hs, piece_at_ok q hs]; exact .ok (h.cell _)

theorem set_player (h : p.Alike q) (b : Bitboard) {o o' : Option Piece} (ho : OptLike o o') :
    Res.Rel Alike (p.piece_set_player b o) (q.piece_set_player b o') := by
  cases o <;> cases o' <;> try exact ho.elim
  · exact .ok h
  · rename_i x y
    simp only [piece_set_player, Like.parts ho]
    refine Res.Rel.step y.to_parts ?_
    rintro ⟨k, c⟩
    cases c
    · exact .ok ⟨h.side, h.ply, h.hands, by simp only [h.player_bb], h.piece_bb, h.king_square, h.board, h.last⟩
    · exact .ok ⟨h.side, h.ply, h.hands, by simp only [h.player_bb], h.piece_bb, h.king_square, h.board, h.last⟩

theorem set_remove (h : p.Alike q) (b : Bitboard) {o o' : Option Piece} (ho : OptLike o o') :
    Res.Rel Alike (p.piece_set_remove b o) (q.piece_set_remove b o') := by
  cases o <;> cases o' <;> try exact ho.elim
  · exact .ok h
  · rename_i x y
    simp only [piece_set_remove, Piece.piece_kind, Like.parts ho, h.piece_bb]
    refine Res.Rel.step _ fun k => Res.Rel.step _ fun i => Res.Rel.step _ fun b => Res.Rel.step _ fun v => ?_
    exact .ok ⟨h.side, h.ply, h.hands, h.player_bb, rfl, h.king_square, h.board, h.last⟩

theorem set_insert (h : p.Alike q) (s : Square) (b : Bitboard) {o o' : Option Piece} (ho : OptLike o o') :
    Res.Rel Alike (p.piece_set_insert s b o) (q.piece_set_insert s b o') := by
  cases o <;> cases o' <;> try exact ho.elim
  · exact .ok h
  · rename_i x y
    have k1 := Like.king ho .Black
    have k2 := Like.king ho .White
    simp only [piece_set_insert, Piece.piece_kind, Like.parts ho, h.piece_bb, const_BK, const_WK, Res.bind_ok, k1, k2]
    refine Res.Rel.step _ fun k => Res.Rel.step _ fun i => Res.Rel.step _ fun b => Res.Rel.step _ fun v => .ok ?_
    by_cases e1 : y = Piece.mk' .King .Black <;> by_cases e2 : y = Piece.mk' .King .White
    all_goals
      first
        | rw [if_pos e1, if_pos e1]
        | rw [if_neg e1, if_neg e1]
      first
        | rw [if_pos e2, if_pos e2]
        | rw [if_neg e2, if_neg e2]
      exact ⟨h.side, h.ply, h.hands, h.player_bb, rfl, by simp only [h.king_square], h.board, h.last⟩

theorem piece_set (h : p.Alike q) {s : Square} (hs : s.Valid) {o o' : Option Piece} (ho : OptLike o o') :
    Res.Rel Alike (p.piece_set s o) (q.piece_set s o') := by
  obtain ⟨h1, h2⟩ := index_sub hs
  have hi := Square.idx0_lt hs
  unfold PartialPosition.piece_set
  simp only [Square.index_ok hs, Res.bind_ok, BitVec.ofNat_eq_ofNat, h1, h2, piece_at_ok p hs, piece_at_ok q hs,
    setUnchecked_ok hi, show Bitboard.single_inlined s = .ok (Bitboard.one s.idx0) from Bitboard.single_ok hs]
  generalize Bitboard.one s.idx0 = b
  have hb : ∀ i, (hi' : i < 81) →
      ByteLike (p.board.set s.idx0 (OptionPiece.ofOption o) hi)[i].val
        (q.board.set s.idx0 (OptionPiece.ofOption o') hi)[i].val := by
    intro i hi'
    simp only [Vector.getElem_set]
    split
    · exact ho.byte
    · exact h.board i hi'
  refine Res.Rel.bind (R := Alike) (set_player ?_ b ho) fun p' q' h' =>
    (h'.set_remove b (h.cell _)).bind fun p' q' h' => h'.set_insert s b ho
  exact ⟨h.side, h.ply, h.hands, by simp only [h.player_bb], h.piece_bb, h.king_square, hb, h.last⟩

theorem hand_assign (h : p.Alike q) (c : Color) (v : Hand) :
    Res.Rel Alike (p.hand_of_a_player_mut_assign c v) (q.hand_of_a_player_mut_assign c v) := by
  rw [hand_assign_ok, hand_assign_ok, h.hands]
  exact .ok ⟨h.side, h.ply, rfl, h.player_bb, h.piece_bb, h.king_square, h.board, h.last⟩

/-- The answers agree and the positions stay alike. -/
def Both {α : Type} (a b : PartialPosition × α) : Prop := a.2 = b.2 ∧ a.1.Alike b.1

theorem capture (h : p.Alike q) {x y : Piece} (hx : x.to_parts = y.to_parts) {t : Square} (ht : t.Valid) :
    Res.Rel Both (p.make_move_capture x t) (q.make_move_capture y t) := by
  unfold make_move_capture
  refine (h.piece_at ht).bind fun o o' ho => ?_
  cases o <;> cases o' <;> try exact ho.elim
  · exact .ok ⟨rfl, h⟩
  · rename_i z w
    simp only [Piece.color, Piece.piece_kind, hx, Like.parts ho]
    refine Res.Rel.step _ fun c => Res.Rel.step _ fun d => ?_
    by_cases e : c = d
    · simp only [if_pos e]; exact .ok ⟨rfl, h⟩
    · simp only [if_neg e]
      refine Res.Rel.step _ fun c => ?_
      rw [twin_hand h.hands]
      refine Res.Rel.step (q.hand_of_a_player c) fun hd => Res.Rel.step _ fun k => ?_
      refine Res.Rel.step (hd.added _) fun o => ?_
      cases o with
      | none => exact .ok ⟨rfl, h⟩
      | some v =>
        refine Res.Rel.step _ fun c => ?_
        exact (h.hand_assign c v).bind fun p' q' h' => .ok ⟨rfl, h'⟩

end PartialPosition.Alike

/-- Moves that are alike. -/
inductive MoveLike : Move → Move → Prop
  | normal {s t : Square} (pr : Bool) : s.Valid → t.Valid → MoveLike (.Normal s t pr) (.Normal s t pr)
  | drop {x : Piece} {t : Square} {k : PieceKind} {c : Color} : t.Valid → x.to_parts = .ok (k, c) →
      MoveLike (.Drop x t) (.Drop (Piece.mk' k c) t)

/-- Their words. -/
theorem MoveLike.words {m m' : Move} (h : MoveLike m m') : ∃ c c', CompactMove.ofMove m = .ok c ∧
    CompactMove.ofMove m' = .ok c' ∧ (c.val = c'.val ∨
      (LooseMove c.val.toNat ∧ c'.val.toNat = docMove c.val.toNat)) := by
  cases h with
  | normal pr hs ht =>
    obtain ⟨c, e, _⟩ := CompactMove.ofMove_ok (m := .Normal _ _ pr) ⟨hs, ht⟩
    exact ⟨c, c, e, e, .inl rfl⟩
  | @drop x t k c ht e =>
    obtain ⟨c1, _, e1, h1⟩ := drop_any (p := x) ht
    obtain ⟨c2, _, e2, h2⟩ := drop_any (p := Piece.mk' k c) ht
    obtain ⟨h3, h4, _⟩ := parts_loose e
    refine ⟨c1, c2, e1, e2, .inr ?_⟩
    unfold Square.Valid at ht
    have m1 : c1.val.toNat % 128 = t.val.toNat := by omega
    have m2 : c1.val.toNat / 128 % 2 = 1 := by omega
    have m3 : c1.val.toNat / 256 = x.val.toNat := by omega
    have m4 : c1.val.toNat % 256 = 128 + t.val.toNat := by omega
    refine ⟨⟨by rw [m1]; exact ht, fun _ => by rw [m3]; exact h3, fun h => by omega⟩, ?_⟩
    unfold docMove
    rw [if_pos m2, m3, m4, h2, h4]; omega

namespace PartialPosition.Alike

variable {p q : PartialPosition}

theorem finish (h : p.Alike q) {m m' : Move} (hm : MoveLike m m') :
    Res.Rel Both (p.make_move_finish m) (q.make_move_finish m') := by
  obtain ⟨c, c', e, e', hl⟩ := hm.words
  simp only [make_move_finish, e, e', Res.bind_ok, h.side, h.ply]
  refine Res.Rel.step q.side.flip fun s => ?_
  exact .ok ⟨rfl, rfl, rfl, h.hands, h.player_bb, h.piece_bb, h.king_square, h.board, hl⟩

theorem make_move (h : p.Alike q) {m m' : Move} (hm : MoveLike m m') :
    Res.Rel Both (p.make_move m) (q.make_move m') := by
  have rej : Res.Rel Both (pure (p, (none : Option Unit))) (pure (q, none)) := .ok ⟨rfl, h⟩
  have hm' := hm
  cases hm with
  | @normal s t pr hs ht =>
    simp only [PartialPosition.make_move, h.side]
    refine (h.piece_at hs).bind fun o o' ho => ?_
    cases o <;> cases o' <;> try exact ho.elim
    · exact rej
    rename_i x y
    have ho : Like x y := ho
    simp only [Piece.color, ho.parts]
    refine Res.Rel.step _ fun c => ?_
    by_cases e : c ≠ q.side
    · simp only [if_pos e]; exact rej
    simp only [if_neg e]
    refine Res.Rel.bind (R := OptLike) ?_ fun o o' ho' => ?_
    · cases pr
      · exact .ok ho
      · simp only [if_true, Piece.promote, ho.parts]
        refine (Res.Rel.same _).bind ?_
        rintro ⟨k, c⟩ _ rfl
        cases k.promote with
        | none => exact .ok trivial
        | some k' => exact (Res.Rel.same _).bind (by rintro a _ rfl; exact .ok (.inl rfl))
    · cases o <;> cases o' <;> try exact ho'.elim
      · exact rej
      · refine (h.capture ho.parts ht).bind ?_
        rintro ⟨p', r⟩ ⟨q', r'⟩ ⟨hr, h'⟩
        simp only at hr h'
        subst hr
        cases r with
        | none => exact .ok ⟨rfl, h'⟩
        | some u =>
          exact (h'.piece_set hs (o := none) (o' := none) trivial).bind fun _ _ h => (h.piece_set ht ho').bind
            fun _ _ h => h.finish hm'
  | @drop x t k c ht e =>
    have hx : x.to_parts = (Piece.mk' k c).to_parts := by rw [e, Piece.to_parts_mk']
    simp only [PartialPosition.make_move, h.side, Piece.color, Piece.piece_kind, Piece.unpromote, e,
      Piece.to_parts_mk', Res.bind_ok, Res.pure_eq]
    by_cases e1 : c ≠ q.side
    · simp only [if_pos e1]; exact rej
    simp only [if_neg e1]
    refine Res.Rel.step _ fun o => ?_
    by_cases e2 : o.isSome = true
    · simp only [if_pos e2]; exact rej
    simp only [if_neg e2]
    refine (h.piece_at ht).bind fun o o' ho => ?_
    have e3 : o.isSome = o'.isSome := by
      cases o <;> cases o' <;> try exact ho.elim
      all_goals rfl
    rw [e3]
    by_cases e4 : o'.isSome = true
    · simp only [if_pos e4]; exact rej
    simp only [if_neg e4]
    rw [twin_hand h.hands]
    refine Res.Rel.step (q.hand_of_a_player c) fun hd => ?_
    rw [Hand.removed_ok, Res.bind_ok, Res.bind_ok]
    by_cases hk : k.InHand
    · have hne : k ≠ .King := by rintro rfl; exact absurd hk (by decide)
      rw [dif_pos hk]
      split
      · exact rej
      · exact (h.hand_assign c _).bind fun _ _ h =>
          (h.piece_set ht (o := some x) (o' := some (Piece.mk' k c)) (.inr ⟨hx, k, c, rfl, hne⟩)).bind
            fun _ _ h => h.finish hm'
    · rw [dif_neg hk]; exact rej

end PartialPosition.Alike

/-! ### Words -/

instance (n : Nat) : Decidable (LooseMove n) := inferInstanceAs (Decidable (_ ∧ _))

/-- The documented word. -/
def docWord (v : U16) : U16 := BitVec.ofNat 16 (docMove v.toNat)

omit P in
theorem docWord_num {v : U16} (_h : LooseMove v.toNat) : (docWord v).toNat = docMove v.toNat := by
  have hv := v.isLt
  unfold docWord
  rw [BitVec.toNat_ofNat]
  apply Nat.mod_eq_of_lt
  unfold docMove
  split
  · unfold docPiece; split <;> omega
  · omega

/-- What a loose word and its documented word are decoded to. -/
theorem word_moves {v : U16} (h : LooseMove v.toNat) :
    ∃ m m', CompactMove.arg v = .ok ⟨v⟩ ∧ CompactMove.arg (docWord v) = .ok ⟨docWord v⟩ ∧
      CompactMove.toMove ⟨v⟩ = .ok m ∧ CompactMove.toMove ⟨docWord v⟩ = .ok m' ∧ MoveLike m m' ∧
      m'.Valid ∧ (⟨docWord v⟩ : CompactMove).encodes m' := by
  have hd := docWord_num h
  obtain ⟨ht, h1, h2⟩ := h
  have hv := v.isLt
  have a1 : CompactMove.arg v = .ok ⟨v⟩ := by
    rcases move_arg0 v with ⟨h0, _⟩ | ⟨_, e⟩
    · have := ht.1; omega
    · exact e
  have a2 : ∀ w : U16, w.toNat ≠ 0 → CompactMove.arg w = .ok ⟨w⟩ := by
    intro w hw
    rcases move_arg0 w with ⟨h0, _⟩ | ⟨_, e⟩
    · exact absurd h0 hw
    · exact e
  have htv : (⟨cast 8 (v &&& 127)⟩ : Square).Valid := by
    show SquareByte (cast 8 (v &&& 127) : U8).toNat
    rw [low7]; exact ht
  have htn : (⟨cast 8 (v &&& 127)⟩ : Square).val.toNat = v.toNat % 128 := low7 v
  by_cases hb : v.toNat / 128 % 2 = 1
  · have hx := h1 hb
    have hxn : (cast 8 (v >>> 8) : U8).toNat = v.toNat / 256 := high8 v
    rw [← hxn] at hx
    obtain ⟨k, c, e1, e2, _⟩ := loose_parts hx
    have hdn : (docWord v).toNat = (Piece.mk' k c).val.toNat * 256 + 128 + v.toNat % 128 := by
      rw [hd, e2, hxn]; unfold docMove; rw [if_pos hb]; omega
    have hval : (Move.Drop (Piece.mk' k c) ⟨cast 8 (v &&& 127)⟩).Valid := ⟨Piece.mk'_valid k c, htv⟩
    have henc : (⟨docWord v⟩ : CompactMove).encodes (.Drop (Piece.mk' k c) ⟨cast 8 (v &&& 127)⟩) := by
      show (docWord v).toNat = _
      rw [hdn, ← htn]
    refine ⟨_, _, a1, a2 _ (by omega), ?_, CompactMove.toMove_of_encodes hval henc, .drop htv e1, hval, henc⟩
    have h0 : (cast 8 (v >>> 8) : U8) ≠ 0#8 := by
      intro e
      rw [e] at hx; exact absurd hx (by decide)
    simp only [CompactMove.toMove, CompactMove.to, Square.from_u8_unchecked_ok htv, Res.bind_ok, CompactMove.is_drop_eq,
      hb, decide_true, if_true, Piece.from_u8_unchecked, nonzero_ok h0, Res.pure_eq]
  · have hs := h2 (by omega)
    have hsv : (⟨cast 8 ((v >>> 8) &&& 127)⟩ : Square).Valid := by
      show SquareByte (cast 8 ((v >>> 8) &&& 127) : U8).toNat
      rw [high7]; exact hs
    have hsn : (⟨cast 8 ((v >>> 8) &&& 127)⟩ : Square).val.toNat = v.toNat / 256 % 128 := high7 v
    have hdv : docWord v = v := by
      apply BitVec.eq_of_toNat_eq
      rw [hd]; unfold docMove; rw [if_neg hb]
    have hval : (Move.Normal ⟨cast 8 ((v >>> 8) &&& 127)⟩ ⟨cast 8 (v &&& 127)⟩
      (decide (v.toNat / 32768 = 1))).Valid := ⟨hsv, htv⟩
    have henc : (⟨v⟩ : CompactMove).encodes (.Normal ⟨cast 8 ((v >>> 8) &&& 127)⟩ ⟨cast 8 (v &&& 127)⟩
        (decide (v.toNat / 32768 = 1))) := by
      show v.toNat = (if decide (v.toNat / 32768 = 1) = true then 32768 else 0) + _ * 256 + _
      rw [hsn, htn]
      by_cases hp : v.toNat / 32768 = 1
      · simp only [hp, decide_true, if_true]; omega
      · simp only [hp, decide_false, Bool.false_eq_true, if_false]; omega
    rw [hdv]
    have e := CompactMove.toMove_of_encodes hval henc
    exact ⟨_, _, a1, a1, e, e, .normal _ hsv htv, hval, henc⟩

theorem callMove_rel {p q : PartialPosition} (h : p.Alike q) {v : U16} (hv : LooseMove v.toNat) :
    Res.Rel Alike.Both (p.callMove v) (q.callMove (docWord v)) := by
  obtain ⟨m, m', e1, e2, e3, e4, hm, _⟩ := word_moves hv
  simp only [PartialPosition.callMove, e1, e2, e3, e4, Res.bind_ok, PartialPosition.make_compact_move]
  refine (h.make_move hm).bind ?_
  rintro ⟨p', r⟩ ⟨q', r'⟩ ⟨hr, h'⟩
  simp only at hr h'
  subst hr
  exact .ok ⟨rfl, h'⟩

theorem move_ub {v : U16} (hv : ¬ LooseMove v.toNat) :
    CompactMove.arg v = .ub ∨ (CompactMove.arg v = .ok ⟨v⟩ ∧ (CompactMove.toMove ⟨v⟩ = .ub ∨
      ∃ x t, CompactMove.toMove ⟨v⟩ = .ok (.Drop x t) ∧ x.to_parts = .ub)) := by
  rcases move_arg0 v with ⟨_, e⟩ | ⟨_, e⟩
  · exact .inl e
  refine .inr ⟨e, ?_⟩
  by_cases ht : SquareByte (v.toNat % 128)
  · have htv : (⟨cast 8 (v &&& 127)⟩ : Square).Valid := by
      show SquareByte (cast 8 (v &&& 127) : U8).toNat
      rw [low7]; exact ht
    simp only [CompactMove.toMove, CompactMove.to, Square.from_u8_unchecked_ok htv, Res.bind_ok, CompactMove.is_drop_eq]
    by_cases hb : v.toNat / 128 % 2 = 1
    · simp only [hb, decide_true, if_true, Piece.from_u8_unchecked]
      have hx : ¬ LoosePieceByte (cast 8 (v >>> 8) : U8).toNat := by
        rw [high8]
        exact fun h => hv ⟨ht, fun _ => h, fun h' => by omega⟩
      by_cases h0 : (cast 8 (v >>> 8) : U8) = 0#8
      · refine .inl ?_
        rw [h0]; rfl
      · refine .inr ⟨⟨cast 8 (v >>> 8)⟩, _, by simp only [nonzero_ok h0, Res.bind_ok, Res.pure_eq]; rfl, ?_⟩
        rcases parts_out ⟨cast 8 (v >>> 8)⟩ with ⟨h, _⟩ | ⟨_, h | ⟨h, _⟩⟩
        · exact absurd h hx
        · exact h
        · exfalso
          have t : ∀ n < 256, Piece.to_parts ⟨BitVec.ofNat 8 n⟩ ≠ .panic := by decide +kernel
          exact at_byte (p := fun _ v => Piece.to_parts ⟨v⟩ ≠ .panic) t _ h
    · refine .inl ?_
      simp only [hb, decide_false, Bool.false_eq_true, if_false]
      rw [unchecked_ub (v := cast 8 ((v >>> 8) &&& 127)) (by
        rw [high7]; exact fun h => hv ⟨ht, fun h' => absurd h' hb, fun _ => h⟩)]
      rfl
  · refine .inl ?_
    simp only [CompactMove.toMove, CompactMove.to]
    rw [unchecked_ub (v := cast 8 (v &&& 127)) (by rw [low7]; exact ht)]
    rfl

/-! ### C94 -/

/-- **C94**: on a board whose bytes are all harmless, a word can be passed as a move exactly if it is
loosely a move; every other word is undefined behaviour, whatever the position. -/
theorem C94_defined (p : PartialPosition) (v : U16) :
    ((∀ i, (h : i < 81) → HarmlessCode p.board[i].val) → LooseMove v.toNat → ∃ r, p.callMove v = .ok r) ∧
    (¬ LooseMove v.toNat → p.callMove v = .ub) := by
  refine ⟨fun h hv => ?_, fun hv => ?_⟩
  · obtain ⟨m, m', e1, e2, e3, e4, hm, hval, _⟩ := word_moves hv
    obtain ⟨⟨q, r⟩, e, _⟩ := tame_make_move ((tame_iff p).2 h) hval
    have := callMove_rel (Alike.refl p) hv
    have e5 : p.callMove (docWord v) = .ok (q, r.isSome) := by
      simp only [PartialPosition.callMove, e2, e4, e, Res.bind_ok, PartialPosition.make_compact_move, Res.pure_eq]
    rw [e5] at this
    generalize hx : p.callMove v = x at this
    cases this with
    | ok _ => exact ⟨_, rfl⟩
  · rcases move_ub hv with e | ⟨e, e' | ⟨x, t, e', ex⟩⟩
    · simp only [PartialPosition.callMove, e]; rfl
    · simp only [PartialPosition.callMove, e, Res.bind_ok, PartialPosition.make_compact_move, e']; rfl
    · simp only [PartialPosition.callMove, e, Res.bind_ok, PartialPosition.make_compact_move, e',
        PartialPosition.make_move, Piece.color, ex]; rfl

/-- **C94**: the same for `Position_make_compact_move`, which passes the word on and records the move
exactly if it was made. -/
theorem C94_position (p : Position) (v : U16) :
    (LooseMove v.toNat → Res.Rel (fun a b => a.2 = b.2 ∧ a.1.inner = b.1 ∧ a.1.initial = p.initial ∧
        a.1.moves.length = p.moves.length + a.2.toNat ∧ p.moves <+: a.1.moves)
      (p.callMove v) (p.inner.callMove v)) ∧
    (¬ LooseMove v.toNat → p.callMove v = .ub) := by
  refine ⟨fun hv => ?_, fun hv => ?_⟩
  · obtain ⟨m, m', e1, e2, e3, e4, hm, hval, _⟩ := word_moves hv
    simp only [Position.callMove, PartialPosition.callMove, e1, e3, Res.bind_ok, Position.make_compact_move,
      PartialPosition.make_compact_move, Position.make_move]
    cases p.inner.make_move m with
    | panic => exact .panic
    | ub => exact .ub
    | ok a =>
      obtain ⟨q, r⟩ := a
      cases r with
      | none => exact .ok ⟨rfl, rfl, rfl, rfl, List.prefix_rfl⟩
      | some u => exact .ok ⟨rfl, rfl, rfl, by simp, by simp⟩
  · rcases move_ub hv with e | ⟨e, e' | ⟨x, t, e', ex⟩⟩
    · simp only [Position.callMove, e]; rfl
    · simp only [Position.callMove, e, Res.bind_ok, Position.make_compact_move, e']; rfl
    · simp only [Position.callMove, e, Res.bind_ok, Position.make_compact_move, e', Position.make_move,
        PartialPosition.make_move, Piece.color, ex]; rfl

/-- **C94**: a word that is refused changes nothing. -/
theorem C94_refused (p q : PartialPosition) (v : U16) (h : p.callMove v = .ok (q, false)) : q = p := by
  have hv : LooseMove v.toNat := by
    refine Decidable.byContradiction fun hv => ?_
    rw [(C94_defined p v).2 hv] at h; cases h
  obtain ⟨m, m', e1, e2, e3, e4, hm, hval, _⟩ := word_moves hv
  let D : Damage := ⟨fun _ _ => False, fun _ _ => False, fun _ => False⟩
  have ht : TwinI D p p := ⟨rfl, rfl, rfl, rfl, fun _ _ _ _ => rfl, fun _ _ _ _ => rfl, fun _ _ => rfl⟩
  have := ht.make_move m
  simp only [PartialPosition.callMove, e1, e3, Res.bind_ok, PartialPosition.make_compact_move] at h
  generalize p.make_move m = x at this h
  cases this with
  | panic => cases h
  | ub => cases h
  | @ok a b hab =>
    obtain ⟨p', r⟩ := a
    simp only [Res.bind_ok, Res.pure_eq] at h
    cases r with
    | none => cases h; exact (hab.2.2.2 rfl).1
    | some u => cases h

/-- **C94**: a loose word does the same as the documented word it stands for, which is one. -/
theorem C94_alike (p q : PartialPosition) (h : p.Alike q) (v : U16) (hv : LooseMove v.toNat) :
    (docWord v).toNat = docMove v.toNat ∧ CompactMove.Valid ⟨docWord v⟩ ∧
    Res.Rel (fun a b => a.2 = b.2 ∧ a.1.Alike b.1) (p.callMove v) (q.callMove (docWord v)) := by
  obtain ⟨m, m', _, _, _, _, _, hval, henc⟩ := word_moves hv
  exact ⟨docWord_num hv, ⟨m', hval, henc⟩, callMove_rel h hv⟩

/-- **C94**: positions that are alike have the same text. -/
theorem C94_text (p q : PartialPosition) (h : p.Alike q) {W : Type} [Write W] :
    (p.to_sfen : FmtM W Unit) = q.to_sfen := by
  have hr : ∀ i js v, (to_sfen_row p i js v : FmtM W U8) = to_sfen_row q i js v := by
    intro i js
    induction js with
    | nil => intro v; rfl
    | cons j js ih =>
      intro v
      simp only [to_sfen_row, ih]
      congr 1; funext k
      by_cases hk : 9 * k + i < 81
      · simp only [getUnchecked_ok hk, FmtM.lift_ok, pure_bind]
        have ho := ByteLike.opt (h.board _ hk)
        generalize p.board[9 * k + i].toOption = a at ho
        generalize q.board[9 * k + i].toOption = b at ho
        cases a <;> cases b <;> try exact ho.elim
        · rfl
        · rename_i x y
          simp only [Piece.to_usi, Like.parts ho]
      · have e : ∀ b : Vector OptionPiece 81, getUnchecked b (9 * k + i) = .ub := by
          intro b; unfold getUnchecked; rw [dif_neg hk]
        simp only [e, lift_ub_bind]
  have hb : ∀ is, (to_sfen_board p is : FmtM W Unit) = to_sfen_board q is := by
    intro is
    induction is with
    | nil => rfl
    | cons j js ih => simp only [to_sfen_board, hr, ih]
  simp only [to_sfen, hb, h.side, h.hands, h.ply]

/-- **C94**: any series of loose words on a position of the API: all calls are defined, the answers
are those to the documented words, and at the end only bytes of the board and the last move can tell
the difference. -/
theorem C94_session (p q : PartialPosition) (hq : ApiReach q) (h : p.Alike q) (vs : List U16)
    (hv : ∀ v ∈ vs, LooseMove v.toNat) :
    ∃ p' q' rs txt, p.callMoves vs = .ok (p', rs) ∧ q.callMoves (vs.map docWord) = .ok (q', rs) ∧
      p'.Alike q' ∧ ApiReach q' ∧ p'.to_sfen_owned = .ok txt ∧ q'.to_sfen_owned = .ok txt := by
  induction vs generalizing p q with
  | nil =>
    refine ⟨p, q, [], _, rfl, rfl, h, hq, ?_, to_sfen_owned_ok (reach_ok hq)⟩
    unfold to_sfen_owned
    rw [C94_text p q h]
    exact to_sfen_owned_ok (reach_ok hq)
  | cons v vs ih =>
    have h1 := hv v (by simp)
    obtain ⟨m, m', e1, e2, e3, e4, hm, hval, henc⟩ := word_moves h1
    have hr : ∃ q1 r, q.make_move m' = .ok (q1, r) := by
      rcases make_move_ok (reach_ok hq) hval with ⟨_, q', e, _⟩ | ⟨_, e⟩ <;> exact ⟨_, _, e⟩
    obtain ⟨q1, r, e⟩ := hr
    have e5 : q.callMove (docWord v) = .ok (q1, r.isSome) := by
      simp only [PartialPosition.callMove, e2, e4, e, Res.bind_ok, PartialPosition.make_compact_move, Res.pure_eq]
    have hrel := callMove_rel h h1
    rw [e5] at hrel
    generalize hx : p.callMove v = x at hrel
    cases hrel with
    | @ok a b hab =>
      obtain ⟨p1, r1⟩ := a
      obtain ⟨hr1, ha⟩ := hab
      simp only at hr1 ha
      subst hr1
      have hq1 : ApiReach q1 := .step hq (.make_move hval e)
      obtain ⟨p', q', rs, txt, g1, g2, g3, g4, g5, g6⟩ := ih p1 q1 hq1 ha fun v h => hv v (by simp [h])
      refine ⟨p', q', r.isSome :: rs, txt, ?_, ?_, g3, g4, g5, g6⟩
      · simp only [callMoves, hx, g1, Res.bind_ok, Res.pure_eq]
      · simp only [List.map_cons, callMoves, e5, g2, Res.bind_ok, Res.pure_eq]

/-! ### Concrete cases -/

/-- White to move with a pawn in hand, for examples. -/
def oddStart : PartialPosition :=
  { PartialPosition.empty with side := .White, hands := #v[Hand.new, ⟨#v[1, 0, 0, 0, 0, 0, 0, 0]⟩] }

-- 33 is no documented code, and is dropped as White's pawn on the square 50
example : LooseMove 8626 ∧ docMove 8626 = 4530 ∧ LooseMove 4530 ∧ docMove 4530 = 4530 ∧
    ¬ LooseMove 50 ∧ ¬ LooseMove (15 * 256 + 178) := by decide
-- it stays on the board as 33, where the documented word leaves 17
example : letI := demoBuild
    (match oddStart.callMove 8626 with | .ok (p, r) => r && p.board[49].val == 33#8 | _ => false) = true ∧
    (match oddStart.callMove 4530 with | .ok (p, r) => r && p.board[49].val == 17#8 | _ => false) = true := by
  decide +kernel
-- a second drop is refused and changes nothing; both drops are defined and have equal answers
example : ∃ r, oddStart.callMove 8626 = .ok r :=
  (C94_defined oddStart 8626).1 (by
    intro i hi
    have : oddStart.board[i].val = 0#8 := by
      simp [oddStart, PartialPosition.empty]; rfl
    rw [this]; exact .inl rfl) (by decide)
-- the words of no move
example : oddStart.callMove 50 = .ub := (C94_defined oddStart 50).2 (by decide)
-- the hypotheses of the session
example : oddStart.Alike oddStart := Alike.refl _
example : ∃ p' q' rs txt, PartialPosition.empty.callMoves [8626, 4530, 0x3332] = .ok (p', rs) ∧
    PartialPosition.empty.callMoves [4530, 4530, 0x3332] = .ok (q', rs) ∧
    p'.Alike q' ∧ ApiReach q' ∧ p'.to_sfen_owned = .ok txt ∧ q'.to_sfen_owned = .ok txt := by
  have h := C94_session _ _ .empty (Alike.refl _) [8626#16, 4530#16, 0x3332#16] (by
    intro v hv
    simp only [List.mem_cons, List.not_mem_nil, or_false] at hv
    rcases hv with rfl | rfl | rfl <;> decide)
  rw [show [8626#16, 4530#16, 0x3332#16].map docWord = [4530#16, 4530#16, 0x3332#16] from by decide] at h
  exact h

end ShogiCore
