import Verif.Props.Reachable
import Verif.Props.Sfen
import Verif.Spec.RawStruct

/- C73: structs filled in by hand. -/

set_option linter.unusedSectionVars false

namespace ShogiCore
open PartialPosition

variable [P : Profile]

/-! ### Related computations -/

omit P in
theorem Res.Rel.bind {α β γ δ : Type} {R : α → β → Prop} {S : γ → δ → Prop} {x : Res α} {y : Res β}
    {f : α → Res γ} {g : β → Res δ} (h : Res.Rel R x y) (hf : ∀ a b, R a b → Res.Rel S (f a) (g b)) :
    Res.Rel S (x >>= f) (y >>= g) := by
  cases h with
  | ok h => exact hf _ _ h
  | panic => exact .panic
  | ub => exact .ub

omit P in
theorem Res.Rel.same {α : Type} (x : Res α) : Res.Rel (· = ·) x x := by
  cases x
  · exact .ok rfl
  · exact .panic
  · exact .ub

omit P in
/-- A common first step. -/
theorem Res.Rel.step {α γ δ : Type} {S : γ → δ → Prop} (x : Res α) {f : α → Res γ} {g : α → Res δ}
    (hf : ∀ a, Res.Rel S (f a) (g a)) : Res.Rel S (x >>= f) (x >>= g) :=
  (Res.Rel.same x).bind (by rintro a _ rfl; exact hf a)

/-! ### The relation, by index -/

/-- `Twin` in terms of bits. -/
structure TwinI (D : Damage) (p q : PartialPosition) : Prop where
  board : p.board = q.board
  hands : p.hands = q.hands
  side : p.side = q.side
  ply : p.ply = q.ply
  player : ∀ c, ∀ i < 81, ¬ D.player c (Square.ofIdx i) →
    (p.playerBB c).bit i = (q.playerBB c).bit i
  kind : ∀ k, ∀ i < 81, ¬ D.kind k (Square.ofIdx i) → (p.kindBB k).bit i = (q.kindBB k).bit i
  king : ∀ c, ¬ D.king c → p.kingOf c = q.kingOf c

omit P in
theorem OptionSquare.toOption_inj {a b : OptionSquare} (e : a.toOption = b.toOption) : a = b := by
  unfold OptionSquare.toOption at e
  obtain ⟨a⟩ := a
  obtain ⟨b⟩ := b
  simp only at e
  split at e <;> split at e <;> simp_all

theorem twin_iff {D : Damage} {p q : PartialPosition} : p.Twin D q ↔ TwinI D p q := by
  constructor
  · intro h
    refine ⟨h.board, h.hands, h.side, h.ply, ?_, ?_, ?_⟩
    · intro c i hi hd
      have := h.player c _ _ _ (Square.ofIdx_valid hi) hd (player_bitboard_ok p c) (player_bitboard_ok q c)
      rwa [Bitboard.mem_iff _ (Square.ofIdx_valid hi), Bitboard.mem_iff _ (Square.ofIdx_valid hi),
        Square.idx0_ofIdx hi, ← Bool.eq_iff_iff] at this
    · intro c i hi hd
      have := h.kind c _ _ _ (Square.ofIdx_valid hi) hd (piece_kind_bitboard_ok p c)
        (piece_kind_bitboard_ok q c)
      rwa [Bitboard.mem_iff _ (Square.ofIdx_valid hi), Bitboard.mem_iff _ (Square.ofIdx_valid hi),
        Square.idx0_ofIdx hi, ← Bool.eq_iff_iff] at this
    · intro c hc
      have := h.king c hc
      rw [king_position_ok, king_position_ok] at this
      exact OptionSquare.toOption_inj (Res.ok.inj this)
  · intro h
    refine ⟨h.board, h.hands, h.side, h.ply, ?_, ?_, ?_⟩
    · intro c s a b hs hd ha hb
      rw [player_bitboard_ok] at ha hb; cases ha; cases hb
      rw [Bitboard.mem_iff _ hs, Bitboard.mem_iff _ hs,
        h.player c _ (Square.idx0_lt hs) (by rwa [Square.ofIdx_idx0 hs])]
    · intro c s a b hs hd ha hb
      rw [piece_kind_bitboard_ok] at ha hb; cases ha; cases hb
      rw [Bitboard.mem_iff _ hs, Bitboard.mem_iff _ hs,
        h.kind c _ (Square.idx0_lt hs) (by rwa [Square.ofIdx_idx0 hs])]
    · intro c hc
      rw [king_position_ok, king_position_ok, h.king c hc]

/-! ### The two structs run in step -/

theorem twin_piece_at {p q : PartialPosition} (h : p.board = q.board) (s : Square) :
    p.piece_at s = q.piece_at s := by
  simp only [piece_at, PartialPosition_piece_at, h]

theorem twin_hand {p q : PartialPosition} (h : p.hands = q.hands) (c : Color) :
    p.hand_of_a_player c = q.hand_of_a_player c := by
  simp only [hand_of_a_player, h]

omit P in
theorem playerBB_set (p : PartialPosition) (c d : Color) (b : Bitboard) :
    PartialPosition.playerBB { p with player_bb := p.player_bb.set c.idx0 b c.idx0_lt } d =
      if c = d then b else p.playerBB d := by
  unfold playerBB
  simp only [Vector.getElem_set]
  by_cases e : c = d
  · subst e; simp
  · rw [if_neg e, if_neg (fun h => e (Color.idx0_inj h))]

omit P in
theorem kindBB_set (p : PartialPosition) (c d : PieceKind) (b : Bitboard) :
    PartialPosition.kindBB { p with piece_bb := p.piece_bb.set c.idx0 b c.idx0_lt } d =
      if c = d then b else p.kindBB d := by
  unfold kindBB
  simp only [Vector.getElem_set]
  by_cases e : c = d
  · subst e; simp
  · rw [if_neg e, if_neg (fun h => e (PieceKind.idx0_inj h))]

omit P in
theorem kingOf_set (p : PartialPosition) (c d : Color) (b : OptionSquare) :
    PartialPosition.kingOf { p with king_square := p.king_square.set c.idx0 b c.idx0_lt } d =
      if c = d then b else p.kingOf d := by
  unfold kingOf
  simp only [Vector.getElem_set]
  by_cases e : c = d
  · subst e; simp
  · rw [if_neg e, if_neg (fun h => e (Color.idx0_inj h))]

namespace TwinI

variable {D : Damage} {p q : PartialPosition}

omit P in
theorem setPlayer (h : TwinI D p q) (c : Color) {a b : Bitboard}
    (hb : ∀ i < 81, ¬ D.player c (Square.ofIdx i) → a.bit i = b.bit i) :
    TwinI D { p with player_bb := p.player_bb.set c.idx0 a c.idx0_lt }
      { q with player_bb := q.player_bb.set c.idx0 b c.idx0_lt } := by
  refine ⟨h.board, h.hands, h.side, h.ply, ?_, h.kind, h.king⟩
  intro d i hi hd
  rw [playerBB_set, playerBB_set]
  split
  · rename_i e; subst e; exact hb i hi hd
  · exact h.player d i hi hd

omit P in
theorem setKind (h : TwinI D p q) (c : PieceKind) {a b : Bitboard}
    (hb : ∀ i < 81, ¬ D.kind c (Square.ofIdx i) → a.bit i = b.bit i) :
    TwinI D { p with piece_bb := p.piece_bb.set c.idx0 a c.idx0_lt }
      { q with piece_bb := q.piece_bb.set c.idx0 b c.idx0_lt } := by
  refine ⟨h.board, h.hands, h.side, h.ply, h.player, ?_, h.king⟩
  intro d i hi hd
  rw [kindBB_set, kindBB_set]
  split
  · rename_i e; subst e; exact hb i hi hd
  · exact h.kind d i hi hd

omit P in
theorem setKing (h : TwinI D p q) (c : Color) (b : OptionSquare) :
    TwinI D { p with king_square := p.king_square.set c.idx0 b c.idx0_lt }
      { q with king_square := q.king_square.set c.idx0 b c.idx0_lt } := by
  refine ⟨h.board, h.hands, h.side, h.ply, h.player, h.kind, ?_⟩
  intro d hd
  rw [kingOf_set, kingOf_set]
  split
  · rfl
  · exact h.king d hd

theorem set_player (h : TwinI D p q) (b : Bitboard) (o : Option Piece) :
    Res.Rel (TwinI D) (p.piece_set_player b o) (q.piece_set_player b o) := by
  cases o with
  | none => exact .ok h
  | some x =>
    refine Res.Rel.step x.to_parts ?_
    rintro ⟨k, c⟩
    have key : ∀ c, TwinI D { p with player_bb := p.player_bb.set c.idx0 ((p.playerBB c).bitor b) c.idx0_lt }
        { q with player_bb := q.player_bb.set c.idx0 ((q.playerBB c).bitor b) c.idx0_lt } := by
      intro c
      refine h.setPlayer c ?_
      intro i hi hd
      rw [Bitboard.bit_bitor, Bitboard.bit_bitor, h.player c i hi hd]
    cases c
    · exact .ok (key .Black)
    · exact .ok (key .White)

theorem set_remove (h : TwinI D p q) (b : Bitboard) (o : Option Piece) :
    Res.Rel (TwinI D) (p.piece_set_remove b o) (q.piece_set_remove b o) := by
  cases o with
  | none => exact .ok h
  | some x =>
    refine Res.Rel.step x.piece_kind ?_
    intro k
    simp only [PieceKind.array_index_ok, Res.bind_ok, toNat_kind, idx_ok k.idx0_lt,
      idxSet_ok k.idx0_lt, Res.pure_eq]
    refine .ok (h.setKind k ?_)
    intro i hi hd
    have := h.kind k i hi hd
    rw [Bitboard.bit_andnot _ _ hi, Bitboard.bit_andnot _ _ hi]
    exact congrArg _ this

theorem set_insert (h : TwinI D p q) (s : Square) (b : Bitboard) (o : Option Piece) :
    Res.Rel (TwinI D) (p.piece_set_insert s b o) (q.piece_set_insert s b o) := by
  cases o with
  | none => exact .ok h
  | some x =>
    refine Res.Rel.step x.piece_kind ?_
    intro k
    simp only [PieceKind.array_index_ok, Res.bind_ok, toNat_kind, idx_ok k.idx0_lt,
      idxSet_ok k.idx0_lt, Res.pure_eq, const_BK, const_WK]
    have h1 := h.setKind k (a := (p.kindBB k).bitor b) (b := (q.kindBB k).bitor b) (by
      intro i hi hd
      rw [Bitboard.bit_bitor, Bitboard.bit_bitor, h.kind k i hi hd])
    have h2 := h1.setKing .Black (.ofOption (some s))
    have h3 := h1.setKing .White (.ofOption (some s))
    have h4 := h2.setKing .White (.ofOption (some s))
    refine .ok ?_
    by_cases e1 : x = Piece.mk' .King .Black <;> by_cases e2 : x = Piece.mk' .King .White
    · simp only [if_pos e1, if_pos e2]; exact h4
    · simp only [if_pos e1, if_neg e2]; exact h2
    · simp only [if_neg e1, if_pos e2]; exact h3
    · simp only [if_neg e1, if_neg e2]; exact h1

theorem piece_set (h : TwinI D p q) (s : Square) (o : Option Piece) :
    Res.Rel (TwinI D) (p.piece_set s o) (q.piece_set s o) := by
  unfold PartialPosition.piece_set
  refine Res.Rel.step s.index fun i => Res.Rel.step (csub i 1) fun j => ?_
  rw [twin_piece_at h.board]
  refine Res.Rel.step (q.piece_at s) fun old => ?_
  simp only [h.board]
  refine Res.Rel.step (setUnchecked q.board j.toNat (OptionPiece.ofOption o)) fun bd => ?_
  refine Res.Rel.step (Bitboard.single_inlined s) fun b => ?_
  have h1 : TwinI D { p with board := bd } { q with board := bd } :=
    ⟨rfl, h.hands, h.side, h.ply, h.player, h.kind, h.king⟩
  have h2 := h1.setPlayer .Black (a := b.andnot (p.playerBB .Black)) (b := b.andnot (q.playerBB .Black)) (by
    intro i hi hd
    rw [Bitboard.bit_andnot _ _ hi, Bitboard.bit_andnot _ _ hi, h.player _ i hi hd])
  have h3 := h2.setPlayer .White (a := b.andnot (p.playerBB .White)) (b := b.andnot (q.playerBB .White)) (by
    intro i hi hd
    rw [Bitboard.bit_andnot _ _ hi, Bitboard.bit_andnot _ _ hi, h.player _ i hi hd])
  have e : ∀ p : PartialPosition, (p.player_bb.set 0 (b.andnot p.player_bb[0]))[1] = p.player_bb[1] := by
    intro p; simp
  simp only [e]
  exact (h3.set_player b o).bind fun p q h => (h.set_remove b old).bind fun p q h => h.set_insert s b o

theorem setHands (h : TwinI D p q) (v : Vector Hand 2) :
    TwinI D { p with hands := v } { q with hands := v } :=
  ⟨h.board, rfl, h.side, h.ply, h.player, h.kind, h.king⟩

theorem hand_assign (h : TwinI D p q) (c : Color) (v : Hand) :
    Res.Rel (TwinI D) (p.hand_of_a_player_mut_assign c v) (q.hand_of_a_player_mut_assign c v) := by
  rw [hand_assign_ok, hand_assign_ok, h.hands]
  exact .ok (h.setHands _)

/-- The answers agree, and so do the structs; after an accepted move also the last move; a
rejected move changes nothing. -/
def After (D : Damage) (p q : PartialPosition) (x y : PartialPosition × Option Unit) : Prop :=
  x.2 = y.2 ∧ TwinI D x.1 y.1 ∧ (x.2 ≠ none → x.1.last_move = y.1.last_move) ∧
    (x.2 = none → x.1 = p ∧ y.1 = q)

theorem capture (h : TwinI D p q) (x : Piece) (t : Square) :
    Res.Rel (fun a b => a.2 = b.2 ∧ TwinI D a.1 b.1 ∧ (a.2 = none → a.1 = p ∧ b.1 = q))
      (p.make_move_capture x t) (q.make_move_capture x t) := by
  unfold make_move_capture
  rw [twin_piece_at h.board]
  refine Res.Rel.step (q.piece_at t) fun o => ?_
  cases o with
  | none => exact .ok ⟨rfl, h, fun e => by cases e⟩
  | some y =>
    refine Res.Rel.step x.color fun c => Res.Rel.step y.color fun d => ?_
    by_cases e : c = d
    · simp only [if_pos e]; exact .ok ⟨rfl, h, fun _ => ⟨rfl, rfl⟩⟩
    · simp only [if_neg e]
      refine Res.Rel.step x.color fun c => ?_
      rw [twin_hand h.hands]
      refine Res.Rel.step (q.hand_of_a_player c) fun hd => Res.Rel.step y.piece_kind fun k => ?_
      refine Res.Rel.step (hd.added _) fun o => ?_
      cases o with
      | none => exact .ok ⟨rfl, h, fun _ => ⟨rfl, rfl⟩⟩
      | some v =>
        refine Res.Rel.step x.color fun c => ?_
        exact (h.hand_assign c v).bind fun p' q' h' => .ok ⟨rfl, h', fun e => by cases e⟩

theorem finish (h : TwinI D p q) (m : Move) (p0 q0 : PartialPosition) :
    Res.Rel (After D p0 q0) (p.make_move_finish m) (q.make_move_finish m) := by
  unfold make_move_finish
  refine Res.Rel.step (CompactMove.ofMove m) fun c => ?_
  simp only [h.side, h.ply]
  refine Res.Rel.step q.side.flip fun s => ?_
  exact .ok ⟨rfl, ⟨h.board, h.hands, rfl, rfl, h.player, h.kind, h.king⟩, fun _ => rfl,
    fun e => by cases e⟩

theorem make_move (h : TwinI D p q) (m : Move) :
    Res.Rel (After D p q) (p.make_move m) (q.make_move m) := by
  have rej : Res.Rel (After D p q) (pure (p, none)) (pure (q, none)) :=
    .ok ⟨rfl, h, fun e => absurd rfl e, fun _ => ⟨rfl, rfl⟩⟩
  cases m with
  | Normal s t pr =>
    simp only [PartialPosition.make_move]
    rw [twin_piece_at h.board, h.side]
    refine Res.Rel.step (q.piece_at s) fun o => ?_
    cases o with
    | none => exact rej
    | some x =>
      refine Res.Rel.step x.color fun c => ?_
      by_cases e : c ≠ q.side
      · simp only [if_pos e]; exact rej
      simp only [if_neg e]
      refine Res.Rel.step (if pr = true then x.promote else Res.ok (some x)) fun o => ?_
      cases o with
      | none => exact rej
      | some y =>
        refine (h.capture x t).bind ?_
        rintro ⟨p', r⟩ ⟨q', r'⟩ ⟨hr, h', hn⟩
        simp only at hr h' hn
        subst hr
        cases r with
        | none => obtain ⟨rfl, rfl⟩ := hn rfl; exact rej
        | some u =>
          exact (h'.piece_set s none).bind fun _ _ h => (h.piece_set t (some y)).bind
            fun _ _ h => h.finish _ _ _
  | Drop x t =>
    simp only [PartialPosition.make_move]
    rw [twin_piece_at h.board, h.side]
    refine Res.Rel.step x.color fun c => ?_
    by_cases e : c ≠ q.side
    · simp only [if_pos e]; exact rej
    simp only [if_neg e]
    refine Res.Rel.step x.unpromote fun o => ?_
    by_cases e : o.isSome = true
    · simp only [if_pos e]; exact rej
    simp only [if_neg e]
    refine Res.Rel.step (q.piece_at t) fun o => ?_
    by_cases e : o.isSome = true
    · simp only [if_pos e]; exact rej
    simp only [if_neg e]
    refine Res.Rel.step x.color fun c => ?_
    rw [twin_hand h.hands]
    refine Res.Rel.step (q.hand_of_a_player c) fun hd => Res.Rel.step x.piece_kind fun k =>
      Res.Rel.step (hd.removed k) fun o => ?_
    cases o with
    | none => exact rej
    | some v =>
      refine Res.Rel.step x.color fun c => ?_
      exact (h.hand_assign c v).bind fun _ _ h => (h.piece_set t (some x)).bind
        fun _ _ h => h.finish _ _ _

theorem make_compact_move (h : TwinI D p q) (c : CompactMove) :
    Res.Rel (fun a b => a.2 = b.2 ∧ TwinI D a.1 b.1 ∧ (a.2 = true → a.1.last_move = b.1.last_move) ∧
        (a.2 = false → a.1 = p ∧ b.1 = q))
      (p.make_compact_move c) (q.make_compact_move c) := by
  unfold PartialPosition.make_compact_move
  refine Res.Rel.step c.toMove fun m => (h.make_move m).bind ?_
  rintro ⟨p', r⟩ ⟨q', r'⟩ ⟨hr, h', hl, hn⟩
  simp only at hr h' hl hn
  subst hr
  refine .ok ⟨rfl, h', ?_, ?_⟩
  · intro e; refine hl ?_; rintro rfl; cases e
  · intro e; refine hn ?_; cases r
    · rfl
    · cases e

end TwinI


/-! ### Bytes of the board -/

omit P in
theorem cellCode_iff (o : OptionPiece) :
    CellCode o.val ↔ ∀ x, o.toOption = some x → x.Valid := by
  unfold CellCode OptionPiece.toOption Piece.Valid
  by_cases h : o.val = 0
  · rw [if_pos h, h]; simp
  · rw [if_neg h]
    constructor
    · rintro (h0 | h1) x ⟨⟩
      · exact absurd (BitVec.eq_of_toNat_eq h0) h
      · exact h1
    · intro h1; exact .inr (h1 _ rfl)

omit P in
private theorem code_table : ∀ n < 256, ∀ k : PieceKind, ∀ c : Color,
    (BitVec.ofNat 8 n = (Piece.mk' k c).val ↔ n = k.idx0 + 1 + 16 * c.idx0) := by decide +kernel

omit P in
theorem code_iff (o : OptionPiece) (k : PieceKind) (c : Color) :
    o.toOption = some (Piece.mk' k c) ↔ o.val.toNat = k.idx0 + 1 + 16 * c.idx0 := by
  have := code_table o.val.toNat o.val.isLt k c
  rw [BitVec.ofNat_toNat, BitVec.setWidth_eq] at this
  rw [← this]
  unfold OptionPiece.toOption
  by_cases h : o.val = 0
  · rw [if_pos h, h]
    have : ∀ k c, (0 : U8) ≠ (Piece.mk' k c).val := by decide +kernel
    simp only [reduceCtorEq, false_iff]
    exact this k c
  · rw [if_neg h]
    constructor
    · intro e; rw [← Option.some.inj e]
    · intro e; rw [e]

omit P in
theorem kind_of_idx {k : Nat} (h : k < 14) : ∃ K : PieceKind, K.idx0 = k := by
  have : ∀ i < 14, ∃ k : PieceKind, k.idx0 = i := by decide +kernel
  exact this k h

omit P in
theorem color_of_idx {c : Nat} (h : c < 2) : ∃ C : Color, C.idx0 = c := by
  have : ∀ i < 2, ∃ k : Color, k.idx0 = i := by decide +kernel
  exact this c h

omit P in
theorem code_color {o : OptionPiece} (h : CellCode o.val) (c : Color) :
    (∃ k, o.toOption = some (Piece.mk' k c)) ↔ o.val.toNat ≠ 0 ∧ o.val.toNat / 16 = c.idx0 := by
  have hc := c.idx0_lt
  constructor
  · rintro ⟨k, e⟩
    rw [code_iff] at e
    have := k.idx0_lt
    omega
  · rintro ⟨h0, h1⟩
    have : o.val.toNat % 16 ≠ 0 ∧ o.val.toNat % 16 < 15 := by unfold CellCode at h; omega
    obtain ⟨k, hk⟩ := kind_of_idx (k := o.val.toNat % 16 - 1) (by omega)
    exact ⟨k, (code_iff o k c).2 (by omega)⟩

omit P in
theorem code_kind {o : OptionPiece} (h : CellCode o.val) (k : PieceKind) :
    (∃ c, o.toOption = some (Piece.mk' k c)) ↔ o.val.toNat % 16 = k.idx0 + 1 := by
  have hk := k.idx0_lt
  constructor
  · rintro ⟨c, e⟩
    rw [code_iff] at e
    have := c.idx0_lt
    omega
  · intro h1
    have : o.val.toNat / 16 < 2 := by unfold CellCode at h; omega
    obtain ⟨c, hc⟩ := color_of_idx this
    exact ⟨c, (code_iff o k c).2 (by omega)⟩

omit P in
theorem cBit_eq (b : Bitboard) (i : Nat) : b.cBit i = b.bit i := rfl

/-! ### The recipe -/

/-- The invariants are all there is to being obtainable through the interface. -/
theorem reach_of_inv {p : PartialPosition} (ok : p.Ok) (hi : p.Hist) : ApiReach p := by
  have hl : ∃ o, p.get_last_move = .ok o := by
    rcases get_last_ok ok with ⟨_, h⟩ | ⟨_, _, _, _, _, h⟩ <;> exact ⟨_, h⟩
  obtain ⟨o, ho⟩ := hl
  have hk := ok.king
  obtain ⟨q, hq, h'⟩ := (C62_exact ⟨fun s => p.cell s.idx0, p.handOf, p.side, p.ply, o,
      fun c => (p.kingOf c).toOption⟩).2 {
    pieces := fun s x _ e => ok.cells _ x e
    hands := ok.hand
    last := by
      rintro m rfl
      rcases get_last_ok ok with ⟨_, h2⟩ | ⟨c, m', h1, hm, henc, h2⟩
      · rw [h2] at ho; cases ho
      · rw [h2] at ho; cases ho; exact hi.last c _ h1 hm henc
    ply := by
      rintro e rfl
      rcases get_last_ok ok with ⟨h1, _⟩ | ⟨c, m', h1, hm, henc, h2⟩
      · exact hi.ply e h1
      · rw [h2] at ho; cases ho
    king_valid := hk
    king_seen := fun c s hs e => hi.seen c _ (Square.idx0_lt hs) e
    no_swap := fun s t es et => hi.swap s t es et }
  have oq := reach_ok hq
  have : p = q := by
    refine ok.ext oq h'.side.symm h'.ply.symm ?_ ?_ (same_last ok oq (ho.trans h'.last.symm)) ?_
    · intro c
      have e := h'.hands c
      rw [hand_of_a_player_ok] at e
      exact (Res.ok.inj e).symm
    · intro i hi
      have e := h'.board _ (Square.ofIdx_valid hi)
      rw [piece_at_ok q (Square.ofIdx_valid hi)] at e
      have e := (Res.ok.inj e).symm
      simpa only [Square.idx0_ofIdx hi] using e
    · intro c
      have e := h'.king c
      rw [king_position_ok] at e
      exact OptionSquare.toOption_inj (Res.ok.inj e).symm
  rw [this]; exact hq

omit P in
theorem hands_idx (p : PartialPosition) (c : Color) : p.hands[c.idx0]'c.idx0_lt = p.handOf c := rfl

omit P in
theorem square_code (o : OptionSquare) (s : Square) :
    o.toOption = some s ↔ o.val = s.val ∧ s.val ≠ 0 := by
  unfold OptionSquare.toOption
  by_cases h : o.val = 0
  · rw [if_pos h, h]
    constructor
    · intro e; cases e
    · rintro ⟨e, e'⟩; exact absurd e.symm e'
  · rw [if_neg h]
    constructor
    · intro e; cases e; exact ⟨rfl, h⟩
    · rintro ⟨e, _⟩; cases s; simp_all

omit P in
theorem square_code_none (o : OptionSquare) : o.toOption = none ↔ o.val.toNat = 0 := by
  unfold OptionSquare.toOption
  by_cases h : o.val = 0
  · rw [if_pos h, h]; simp
  · rw [if_neg h]
    simp only [reduceCtorEq, false_iff]
    intro e; exact h (BitVec.eq_of_toNat_eq e)

theorem CanBeLast_valid {m : Move} (h : m.CanBeLast) : m.Valid := by
  cases m with
  | Normal s t pr => exact ⟨h.1, h.2.1⟩
  | Drop x t => obtain ⟨ht, k, c, rfl, _⟩ := h; exact ⟨Piece.mk'_valid _ _, ht⟩

theorem last_code {p : PartialPosition} : p.LastFilled ↔
    (∀ c, p.last_move.toOption = some c → c.Valid) ∧
    ∀ c m, p.last_move.toOption = some c → m.Valid → c.encodes m → m.CanBeLast := by
  unfold LastFilled OptionCompactMove.toOption
  by_cases h : p.last_move.val = 0
  · rw [if_pos h]; simp [h]
  · rw [if_neg h]
    constructor
    · rintro (h0 | ⟨m, hm, e⟩)
      · exact absurd h0 h
      · obtain ⟨c, hc, henc⟩ := CompactMove.ofMove_ok (CanBeLast_valid hm)
        rw [hc] at e; cases e
        refine ⟨?_, ?_⟩
        · rintro c ⟨⟩; exact ⟨m, CanBeLast_valid hm, henc⟩
        · rintro c m' ⟨⟩ hv he
          rw [encoded_unique hv (CanBeLast_valid hm) he henc]; exact hm
    · rintro ⟨h1, h2⟩
      obtain ⟨m, hm, he⟩ := h1 _ rfl
      obtain ⟨c, hc, henc⟩ := CompactMove.ofMove_ok hm
      refine .inr ⟨m, h2 _ m rfl hm he, ?_⟩
      rw [hc, CompactMove.encodes_inj henc he]

omit P in
theorem last_zero (o : OptionCompactMove) : o.toOption = none ↔ o.val.toNat = 0 := by
  unfold OptionCompactMove.toOption
  by_cases h : o.val = 0
  · rw [if_pos h, h]; simp
  · rw [if_neg h]
    simp only [reduceCtorEq, false_iff]
    intro e; exact h (BitVec.eq_of_toNat_eq e)

omit P in
theorem legible_cells {p : PartialPosition} (h : p.Legible) (i : Nat) (x : Piece)
    (e : p.cell i = some x) : x.Valid := by
  by_cases hi : i < 81
  · rw [cell_lt hi] at e; exact (cellCode_iff _).1 (h.board i hi) x e
  · simp [cell, hi] at e

omit P in
theorem legible_of {p : PartialPosition} (h : ∀ i x, p.cell i = some x → x.Valid)
    (hh : ∀ c, (p.handOf c).Valid) : p.Legible where
  board := fun i hi => (cellCode_iff _).2 fun x e => h i x (by rw [cell_lt hi, e])
  hands := fun c hc => by obtain ⟨C, rfl⟩ := color_of_idx hc; exact hh C

omit P in
private theorem kingCode_eq (c : Color) : PieceKind.King.idx0 + 1 + 16 * c.idx0 = kingCode c.idx0 := by
  cases c <;> rfl

/-- C73: a struct is one that the interface could have produced iff its members are filled in as
`Filled` says.  So a C program that follows the recipe gets a position to which every theorem about
positions applies, and no other struct is such a position. -/
theorem C73_recipe (p : PartialPosition) : ApiReach p ↔ p.Filled := by
  constructor
  · intro h
    have ok := reach_ok h
    have hi := reach_hist h
    have leg := legible_of ok.cells ok.hand
    have hlast := last_code.2 ⟨ok.last, hi.last⟩
    exact {
      legible := leg
      player := fun c hc => by
        obtain ⟨C, rfl⟩ := color_of_idx hc
        refine ⟨(ok.player C).1, (ok.player C).2, fun i h => ?_⟩
        rw [cBit_eq, ← code_color (leg.board i h) C, ← cell_lt h]
        exact ok.player_bit C i h
      kind := fun k hk => by
        obtain ⟨K, rfl⟩ := kind_of_idx hk
        refine ⟨(ok.kind K).1, (ok.kind K).2, fun i h => ?_⟩
        rw [cBit_eq, ← code_kind (leg.board i h) K, ← cell_lt h]
        exact ok.kind_bit K i h
      last := hlast
      ply := fun e => by
        have := hi.ply (BitVec.eq_of_toNat_eq e)
        rwa [ne_eq, last_zero] at this
      king_range := fun c hc => by
        obtain ⟨C, rfl⟩ := color_of_idx hc
        show (p.kingOf C).val.toNat ≤ 81
        cases e : (p.kingOf C).toOption with
        | none => rw [square_code_none] at e; omega
        | some s =>
          have := ok.king C s e
          rw [square_code] at e; rw [e.1]; exact this.2
      king_seen := fun c hc i hi' e => by
        obtain ⟨C, rfl⟩ := color_of_idx hc
        have := hi.seen C i hi' (by rw [cell_lt hi', code_iff, e, kingCode_eq])
        rwa [ne_eq, square_code_none] at this
      king_swap := fun i j hi' hj' e1 e2 => by
        rintro ⟨e3, e4⟩
        refine hi.swap (Square.ofIdx i) (Square.ofIdx j) ?_ ?_ ?_ ?_
        · rw [square_code]; refine ⟨BitVec.eq_of_toNat_eq ?_, ?_⟩
          · rw [Square.ofIdx]; simp only [BitVec.toNat_ofNat]; exact e1.trans (by omega)
          · intro e; have := congrArg BitVec.toNat e; simp [Square.ofIdx] at this; omega
        · rw [square_code]; refine ⟨BitVec.eq_of_toNat_eq ?_, ?_⟩
          · rw [Square.ofIdx]; simp only [BitVec.toNat_ofNat]; exact e2.trans (by omega)
          · intro e; have := congrArg BitVec.toNat e; simp [Square.ofIdx] at this; omega
        · rw [Square.idx0_ofIdx hi', cell_lt hi', code_iff, kingCode_eq]; exact e3
        · rw [Square.idx0_ofIdx hj', cell_lt hj', code_iff, kingCode_eq]; exact e4 }
  · intro h
    have hl := last_code.1 h.last
    have hkv : ∀ c s, (p.kingOf c).toOption = some s → s.Valid := by
      intro c s e
      have := h.king_range c.idx0 c.idx0_lt
      rw [square_code] at e
      refine ⟨?_, ?_⟩
      · have : s.val.toNat ≠ 0 := fun e' => e.2 (BitVec.eq_of_toNat_eq e')
        omega
      · rw [← e.1]; exact this
    refine reach_of_inv {
      cells := legible_cells h.legible
      player := fun c => ⟨(h.player c.idx0 c.idx0_lt).1, (h.player c.idx0 c.idx0_lt).2.1⟩
      player_bit := fun c i hi => by
        rw [cell_lt hi, code_color (h.legible.board i hi)]
        exact (h.player c.idx0 c.idx0_lt).2.2 i hi
      kind := fun c => ⟨(h.kind c.idx0 c.idx0_lt).1, (h.kind c.idx0 c.idx0_lt).2.1⟩
      kind_bit := fun c i hi => by
        rw [cell_lt hi, code_kind (h.legible.board i hi)]
        exact (h.kind c.idx0 c.idx0_lt).2.2 i hi
      hand := fun c => h.legible.hands c.idx0 c.idx0_lt
      last := hl.1
      king := hkv } {
      last := hl.2
      ply := fun e => by
        rw [ne_eq, last_zero]; exact h.ply (by rw [e]; rfl)
      seen := fun c i hi e => by
        rw [ne_eq, square_code_none]
        rw [cell_lt hi, code_iff, kingCode_eq] at e
        exact h.king_seen c.idx0 c.idx0_lt i hi e
      swap := fun s t es et e1 e2 => by
        have hs := hkv _ _ es
        have ht := hkv _ _ et
        have i1 := Square.idx0_lt hs
        have i2 := Square.idx0_lt ht
        rw [cell_lt i1, code_iff, kingCode_eq] at e1
        rw [cell_lt i2, code_iff, kingCode_eq] at e2
        rw [square_code] at es et
        unfold Square.Valid at hs ht
        refine h.king_swap s.idx0 t.idx0 i1 i2 ?_ ?_ ⟨e1, e2⟩
        · show (p.kingOf .Black).val.toNat = _
          rw [es.1]; unfold Square.idx0; omega
        · show (p.kingOf .White).val.toNat = _
          rw [et.1]; unfold Square.idx0; omega }

/-- Non-vacuity: the recipe for a board with one white dragon on 5e, White to move: board byte 40
is 30, bit 40 is set in `player_bb[1]` and `piece_bb[13]`, everything else is zero. -/
example : ApiReach { PartialPosition.empty with
    side := .White
    board := PartialPosition.empty.board.set 40 ⟨30⟩
    player_bb := PartialPosition.empty.player_bb.set 1 ⟨0x10000000000, 0⟩
    piece_bb := PartialPosition.empty.piece_bb.set 13 ⟨0x10000000000, 0⟩ } := by
  refine (C73_recipe _).2 ⟨⟨?_, ?_⟩, ?_, ?_, .inl rfl, by decide, by decide, ?_, ?_⟩
  · unfold CellCode; decide +kernel
  · decide
  · decide +kernel
  · decide +kernel
  · unfold kingCode; decide +kernel
  · intro i j hi hj e; cases e

/-! ### Every legible struct has a twin -/

/-- The conditions of `C62` met with a king square for every king. -/
theorem C73_twin (p : PartialPosition) (h : p.Legible) :
    ∃ q, ApiReach q ∧ p.Twin p.wrong q := by
  have hv : ∀ s x, Square.Valid s → p.cell s.idx0 = some x → x.Valid :=
    fun s x _ e => legible_cells h _ x e
  -- the king squares
  have hk : ∀ c, ∃ o : Option Square, (p.KingRight c → p.king_position c = .ok o) ∧
      (∀ s, o = some s → s.Valid ∧ p.cell s.idx0 = some (Piece.mk' .King c)) ∧
      (o = none → ∀ s : Square, s.Valid → p.cell s.idx0 ≠ some (Piece.mk' .King c)) := by
    intro c
    by_cases hr : p.KingRight c
    · rcases hr with ⟨s, hs, e1, e2⟩ | ⟨e1, e2⟩
      · refine ⟨some s, fun _ => e1, ?_, fun e => by cases e⟩
        rintro t ⟨⟩
        rw [piece_at_ok p hs] at e2
        exact ⟨hs, Res.ok.inj e2⟩
      · refine ⟨none, fun _ => e1, fun _ e => by (cases e), ?_⟩
        intro _ s hs e
        exact e2 s hs (by rw [piece_at_ok p hs, e])
    · by_cases he : ∃ s : Square, s.Valid ∧ p.cell s.idx0 = some (Piece.mk' .King c)
      · obtain ⟨s, hs, e⟩ := he
        refine ⟨some s, fun h => absurd h hr, ?_, fun e => by cases e⟩
        rintro t ⟨⟩; exact ⟨hs, e⟩
      · exact ⟨none, fun h => absurd h hr, fun _ e => by (cases e), fun _ s hs e => he ⟨s, hs, e⟩⟩
  obtain ⟨kb, b1, b2, b3⟩ := hk .Black
  obtain ⟨kw, w1, w2, w3⟩ := hk .White
  let K : Color → Option Square := fun c => match c with | .Black => kb | .White => kw
  have K1 : ∀ c, p.KingRight c → p.king_position c = .ok (K c) := by
    intro c; cases c; exact b1; exact w1
  have K2 : ∀ c s, K c = some s → s.Valid ∧ p.cell s.idx0 = some (Piece.mk' .King c) := by
    intro c; cases c; exact b2; exact w2
  have K3 : ∀ c, K c = none → ∀ s : Square, s.Valid → p.cell s.idx0 ≠ some (Piece.mk' .King c) := by
    intro c; cases c; exact b3; exact w3
  clear_value K
  obtain ⟨q, hq, h'⟩ := (C62_exact ⟨fun s => p.cell s.idx0, p.handOf, p.side, p.ply,
      some (.Normal ⟨1⟩ ⟨2⟩ false), K⟩).2 {
    pieces := hv
    hands := fun c => h.hands c.idx0 c.idx0_lt
    last := by rintro m ⟨⟩; exact ⟨by decide, by decide, by decide⟩
    ply := fun _ e => by cases e
    king_valid := fun c s e => (K2 c s e).1
    king_seen := fun c s hs e e' => K3 c e' s hs e
    no_swap := fun s t es _ e => by
      exact absurd (Option.some.inj ((K2 _ _ es).2.symm.trans e)) (King_ne (by decide)) }
  refine ⟨q, hq, ?_⟩
  have ok := reach_ok hq
  have hc : ∀ i < 81, p.cell i = q.cell i := by
    intro i hi
    have e := h'.board _ (Square.ofIdx_valid hi)
    rw [piece_at_ok q (Square.ofIdx_valid hi)] at e
    have e := (Res.ok.inj e).symm
    simpa only [Square.idx0_ofIdx hi] using e
  have hb : p.board = q.board := by
    apply Vector.ext; intro i hi
    rw [board_eq hi, board_eq hi, hc i hi]
  refine ⟨hb, ?_, h'.side.symm, h'.ply.symm, ?_, ?_, ?_⟩
  · apply Vector.ext; intro i hi
    obtain ⟨c, rfl⟩ := color_of_idx hi
    have e := h'.hands c
    rw [hand_of_a_player_ok] at e
    exact (Res.ok.inj e).symm
  · intro c s a b hs hd ha hb'
    have := Classical.not_not.1 hd a ha
    rw [this, twin_piece_at hb, piece_at_ok q hs]
    rw [player_bitboard_ok] at hb'; cases hb'
    rw [Bitboard.mem_iff _ hs, ok.player_bit c _ (Square.idx0_lt hs)]
    simp only [Res.ok.injEq]
  · intro k s a b hs hd ha hb'
    have := Classical.not_not.1 hd a ha
    rw [this, twin_piece_at hb, piece_at_ok q hs]
    rw [piece_kind_bitboard_ok] at hb'; cases hb'
    rw [Bitboard.mem_iff _ hs, ok.kind_bit k _ (Square.idx0_lt hs)]
    simp only [Res.ok.injEq]
  · intro c hd
    rw [K1 c (Classical.not_not.1 hd), h'.king c]

/-! ### Same behaviour -/

/-- C73: structs with the same board, hands, side and move number show the same and write the same
text, whatever their other members hold. -/
theorem C73_same_view (D : Damage) (p q : PartialPosition) (h : p.Twin D q) :
    (∀ s, p.piece_at s = q.piece_at s) ∧ (∀ s, p.PartialPosition_piece_at s = q.PartialPosition_piece_at s) ∧
    (∀ c, p.hand_of_a_player c = q.hand_of_a_player c) ∧ (∀ x, p.hand x = q.hand x) ∧
    p.side_to_move = q.side_to_move ∧ p.get_ply = q.get_ply ∧
    p.to_sfen_owned = q.to_sfen_owned ∧ ∀ m ptr, p.to_sfen_c m ptr = q.to_sfen_c m ptr := by
  have hs : ∀ (W : Type) [Write W], (p.to_sfen : FmtM W Unit) = q.to_sfen := by
    intro W _
    have hr : ∀ i js v, (to_sfen_row p i js v : FmtM W U8) = to_sfen_row q i js v := by
      intro i js
      induction js with
      | nil => intro v; rfl
      | cons j js ih => intro v; simp only [to_sfen_row, h.board, ih]
    have hb : ∀ is, (to_sfen_board p is : FmtM W Unit) = to_sfen_board q is := by
      intro is
      induction is with
      | nil => rfl
      | cons j js ih => simp only [to_sfen_board, hr, ih]
    simp only [to_sfen, hb, h.side, h.hands, h.ply]
  refine ⟨twin_piece_at h.board, fun s => ?_, twin_hand h.hands, fun x => ?_, h.side, h.ply, ?_, ?_⟩
  · simp only [PartialPosition_piece_at, h.board]
  · simp only [hand, twin_hand h.hands]
  · simp only [to_sfen_owned, hs]
  · intro m ptr; simp only [to_sfen_c, hs]

/-- C73: they give the same verdict on every move, a rejected move changes neither, they stay twins, and no derived member becomes wrong
that was not wrong before.  (This holds for all structs and all moves, also where both calls are
undefined.) -/
theorem C73_same_moves (D : Damage) (p q : PartialPosition) (h : p.Twin D q) (c : CompactMove) :
    Res.Rel (fun a b => a.2 = b.2 ∧ a.1.Twin D b.1 ∧ (a.2 = true → a.1.last_move = b.1.last_move) ∧
        (a.2 = false → a.1 = p ∧ b.1 = q))
      (p.make_compact_move c) (q.make_compact_move c) := by
  have := (twin_iff.1 h).make_compact_move c
  cases e1 : p.make_compact_move c <;> cases e2 : q.make_compact_move c <;> rw [e1, e2] at this <;>
    cases this
  · rename_i h; exact .ok ⟨h.1, twin_iff.2 h.2.1, h.2.2⟩
  · exact .panic
  · exact .ub

theorem twin_make_move {D : Damage} {p q : PartialPosition} (h : p.Twin D q) {m : Move}
    {q' : PartialPosition} {r : Option Unit} (e : q.make_move m = .ok (q', r)) :
    ∃ p', p.make_move m = .ok (p', r) ∧ p'.Twin D q' ∧ (r ≠ none → p'.last_move = q'.last_move) ∧
      (r = none → p' = p) := by
  have := (twin_iff.1 h).make_move m
  rw [e] at this
  cases e1 : p.make_move m <;> rw [e1] at this <;> cases this
  rename_i a h
  obtain ⟨p', r'⟩ := a
  obtain ⟨h1, h2, h3, h4⟩ := h
  simp only at h1 h2 h3 h4
  subst h1
  exact ⟨p', rfl, twin_iff.2 h2, h3, fun e => (h4 e).1⟩

theorem twin_acceptable {D : Damage} {p q : PartialPosition} (h : p.Twin D q) (m : Move) :
    p.Acceptable m ↔ q.Acceptable m := by
  obtain ⟨h1, _, _, h4, h5, _⟩ := C73_same_view D p q h
  cases m <;> simp only [Acceptable, h1, h4, h5]

theorem twin_played {D : Damage} {p q p' q' : PartialPosition} (h : p.Twin D q) (h' : p'.Twin D q')
    (hl : p'.last_move = q'.last_move) {m : Move} (hp : q.Played m q') : p.Played m p' := by
  obtain ⟨h1, _, _, h4, h5, h6, _⟩ := C73_same_view D p q h
  obtain ⟨g1, _, _, g4, g5, g6, _⟩ := C73_same_view D p' q' h'
  refine ⟨?_, ?_, ?_, ?_, ?_, ?_⟩
  · have := hp.board
    cases m <;> simp only [BoardAfter, h1, h5, g1] at this ⊢ <;> exact this
  · intro k c hk
    obtain ⟨n, n', e1, e2, e3⟩ := hp.hands k c hk
    refine ⟨n, n', by rw [h4, e1], by rw [g4, e2], ?_⟩
    cases m <;> simp only [HandAfter, Captures, h1, h5] at e3 ⊢ <;> exact e3
  · simp only [get_last_move, last_compact_move, hl]; exact hp.last
  · simp only [last_compact_move, hl]; exact hp.last_compact
  · rw [h5, g5]; exact hp.side
  · rw [h6, g6]; exact hp.ply

theorem twin_legible {D : Damage} {p q : PartialPosition} (h : p.Twin D q) (ok : q.Ok) : p.Legible := by
  refine legible_of ?_ ?_
  · intro i x e
    refine ok.cells i x ?_
    unfold cell at e ⊢; simpa only [h.board] using e
  · intro c
    have := ok.hand c
    unfold handOf at this ⊢; simpa only [h.hands] using this

/-- C73: the rules of moving for every legible struct, however wrong its bitboards, king squares,
last move and move number are: a move is accepted iff it makes sense on the board, an accepted move
has the documented effect, a rejected one has none, and the struct stays legible. -/
theorem C73_moves (p : PartialPosition) (h : p.Legible) (m : Move) (hm : m.Valid) :
    (p.Acceptable m ∧ ∃ p', p.make_move m = .ok (p', some ()) ∧ p.Played m p' ∧ p'.Legible) ∨
    (¬ p.Acceptable m ∧ p.make_move m = .ok (p, none)) := by
  obtain ⟨q, hq, tw⟩ := C73_twin p h
  rw [twin_acceptable tw]
  rcases make_move_ok (reach_ok hq) hm with ⟨_, q', e, he⟩ | ⟨hn, e⟩
  · left
    obtain ⟨p', e', tw', hl, _⟩ := twin_make_move tw e
    refine ⟨(C28_accept_iff q hq m hm).1.2 ⟨q', e⟩, p', e', ?_, twin_legible tw' he.ok⟩
    exact twin_played tw tw' (hl (by simp)) (C29_effect q q' hq m hm e)
  · right
    obtain ⟨p', e', _, _, h4⟩ := twin_make_move tw e
    refine ⟨fun ha => ?_, by rw [e', h4 rfl]⟩
    obtain ⟨q', e2⟩ := (C28_accept_iff q hq m hm).1.1 ha
    rw [e] at e2; cases e2

/-- C73: a whole session: the struct and its twin give the same answers to any series of moves, end
as twins with the same text (of at most 235 bytes), and the twin stays a proper position. -/
theorem C73_session (p q : PartialPosition) (D : Damage) (hq : ApiReach q) (h : p.Twin D q)
    (cs : List CompactMove) (hc : ∀ c ∈ cs, c.Valid) :
    ∃ p' q' vs txt, p.calls cs = .ok (p', vs) ∧ q.calls cs = .ok (q', vs) ∧ p'.Twin D q' ∧
      ApiReach q' ∧ p'.to_sfen_owned = .ok txt ∧ q'.to_sfen_owned = .ok txt ∧ txt.length ≤ 235 ∧
      (p.last_move = q.last_move ∨ true ∈ vs → p'.last_move = q'.last_move) := by
  induction cs generalizing p q with
  | nil =>
    refine ⟨p, q, [], _, rfl, rfl, h, hq, ?_, to_sfen_owned_ok (reach_ok hq), sfen_le _ _ _, ?_⟩
    · rw [(C73_same_view D p q h).2.2.2.2.2.2.1]; exact to_sfen_owned_ok (reach_ok hq)
    · rintro (e | e)
      · exact e
      · cases e
  | cons c cs ih =>
    obtain ⟨m, hm, henc⟩ := hc c (by simp)
    have hcm : ∀ p : PartialPosition, p.make_compact_move c = (do
        let (p, r) ← p.make_move m
        return (p, r.isSome)) := by
      intro p
      simp only [PartialPosition.make_compact_move, CompactMove.toMove_of_encodes hm henc, Res.bind_ok]
    have hr : ∃ q1 r, q.make_move m = .ok (q1, r) := by
      rcases make_move_ok (reach_ok hq) hm with ⟨_, q', e, _⟩ | ⟨_, e⟩ <;> exact ⟨_, _, e⟩
    obtain ⟨q1, r, eq1⟩ := hr
    obtain ⟨p1, ep1, tw, hl, hn⟩ := twin_make_move h eq1
    have hq1 : ApiReach q1 := .step hq (.make_move hm eq1)
    obtain ⟨p', q', vs, txt, h1, h2, h3, h4, h5, h6, h7, h8⟩ :=
      ih p1 q1 hq1 tw fun c hc' => hc c (by simp [hc'])
    refine ⟨p', q', r.isSome :: vs, txt, ?_, ?_, h3, h4, h5, h6, h7, ?_⟩
    · simp only [calls, hcm, ep1, Res.bind_ok, Res.pure_eq, h1]
    · simp only [calls, hcm, eq1, Res.bind_ok, Res.pure_eq, h2]
    · intro e
      refine h8 ?_
      cases r with
      | some u => exact .inl (hl (by simp))
      | none =>
        rcases e with e | e
        · left
          rcases make_move_ok (reach_ok hq) hm with ⟨_, q', e', _⟩ | ⟨_, e'⟩ <;> rw [e'] at eq1 <;> cases eq1
          rw [hn rfl]; exact e
        · right; simpa using e

/-! ### Wrong bits stay wrong -/

/-- Every value that can be computed satisfies `Q`. -/
def Res.Sat {α : Type} (Q : α → Prop) (x : Res α) : Prop := ∀ a, x = .ok a → Q a

omit P in
theorem Res.Sat.bind {α β : Type} {Q : α → Prop} {R : β → Prop} {x : Res α} {f : α → Res β}
    (h : Res.Sat Q x) (hf : ∀ a, Q a → Res.Sat R (f a)) : Res.Sat R (x >>= f) := by
  intro b e
  cases x with
  | ok a => exact hf a (h a rfl) b e
  | panic => cases e
  | ub => cases e

omit P in
theorem Res.Sat.any {α β : Type} {R : β → Prop} (x : Res α) {f : α → Res β}
    (hf : ∀ a, Res.Sat R (f a)) : Res.Sat R (x >>= f) :=
  Res.Sat.bind (Q := fun _ => True) (fun _ _ => trivial) fun a _ => hf a

omit P in
theorem Res.Sat.ok {α : Type} {Q : α → Prop} {a : α} (h : Q a) : Res.Sat Q (.ok a) := by
  rintro _ ⟨⟩; exact h

/-- The bits of square number `i` are the same. -/
structure KeepBits (i : Nat) (p q : PartialPosition) : Prop where
  player : ∀ c, (q.playerBB c).bit i = (p.playerBB c).bit i
  kind : ∀ k, (q.kindBB k).bit i = (p.kindBB k).bit i

namespace KeepBits

variable {i : Nat} {p q : PartialPosition} (hi : i < 81) {b : Bitboard} (hb : b.bit i = false)
include hi hb

theorem set_player (h : KeepBits i p q) (o : Option Piece) :
    Res.Sat (KeepBits i p) (q.piece_set_player b o) := by
  cases o with
  | none => exact .ok h
  | some x =>
    refine Res.Sat.any x.to_parts ?_
    rintro ⟨k, c⟩
    have key : ∀ c, KeepBits i p
        { q with player_bb := q.player_bb.set c.idx0 ((q.playerBB c).bitor b) c.idx0_lt } := by
      intro c
      refine ⟨fun d => ?_, h.kind⟩
      rw [playerBB_set]
      split
      · rename_i e; subst e; rw [Bitboard.bit_bitor, hb, Bool.or_false, h.player]
      · exact h.player d
    cases c
    · exact .ok (key .Black)
    · exact .ok (key .White)

theorem set_remove (h : KeepBits i p q) (o : Option Piece) :
    Res.Sat (KeepBits i p) (q.piece_set_remove b o) := by
  cases o with
  | none => exact .ok h
  | some x =>
    refine Res.Sat.any x.piece_kind ?_
    intro k
    simp only [PieceKind.array_index_ok, Res.bind_ok, toNat_kind, idx_ok k.idx0_lt,
      idxSet_ok k.idx0_lt, Res.pure_eq]
    refine .ok ⟨h.player, fun l => ?_⟩
    rw [kindBB_set]
    split
    · rename_i e; subst e
      rw [Bitboard.bit_andnot _ _ hi, hb]
      exact h.kind k
    · exact h.kind l

theorem set_insert (h : KeepBits i p q) (s : Square) (o : Option Piece) :
    Res.Sat (KeepBits i p) (q.piece_set_insert s b o) := by
  cases o with
  | none => exact .ok h
  | some x =>
    refine Res.Sat.any x.piece_kind ?_
    intro k
    simp only [PieceKind.array_index_ok, Res.bind_ok, toNat_kind, idx_ok k.idx0_lt,
      idxSet_ok k.idx0_lt, Res.pure_eq, const_BK, const_WK]
    have h1 : ∀ ks, KeepBits i p { q with
        piece_bb := q.piece_bb.set k.idx0 ((q.kindBB k).bitor b) k.idx0_lt, king_square := ks } := by
      intro ks
      refine ⟨h.player, fun l => (congrArg (Bitboard.bit · i) (kindBB_set q k l _)).trans ?_⟩
      split
      · rename_i e; subst e
        rw [Bitboard.bit_bitor, hb, Bool.or_false, h.kind]
      · exact h.kind l
    refine .ok ?_
    by_cases e1 : x = Piece.mk' .King .Black <;> by_cases e2 : x = Piece.mk' .King .White
    · simp only [if_pos e1, if_pos e2]; exact h1 _
    · simp only [if_pos e1, if_neg e2]; exact h1 _
    · simp only [if_neg e1, if_pos e2]; exact h1 _
    · simp only [if_neg e1, if_neg e2]; exact h1 _

omit hb in
theorem piece_set (h : KeepBits i p q) {s : Square} (hs : s.Valid) (hne : s.idx0 ≠ i) (o : Option Piece) :
    Res.Sat (KeepBits i p) (q.piece_set s o) := by
  unfold PartialPosition.piece_set
  refine Res.Sat.any s.index fun a => Res.Sat.any (csub a 1) fun j => ?_
  refine Res.Sat.any (q.piece_at s) fun old => ?_
  refine Res.Sat.any (setUnchecked q.board j.toNat (OptionPiece.ofOption o)) fun bd => ?_
  rw [show Bitboard.single_inlined s = .ok (Bitboard.one s.idx0) from Bitboard.single_ok hs]
  simp only [Res.bind_ok]
  have hb : (Bitboard.one s.idx0).bit i = false := by
    rw [Bitboard.bit_one (Square.idx0_lt hs) i hi]; simpa using hne
  generalize Bitboard.one s.idx0 = b at hb
  have e : ∀ p : PartialPosition, (p.player_bb.set 0 (b.andnot p.player_bb[0]))[1] = p.player_bb[1] := by
    intro p; simp
  simp only [e]
  refine Res.Sat.bind (Q := KeepBits i p) (set_player hi hb ?_ o) fun q1 h1 =>
    (set_remove hi hb h1 old).bind fun q2 h2 => set_insert hi hb h2 s o
  refine ⟨fun c => ?_, h.kind⟩
  rw [← h.player c]
  have hbit : ∀ a : Bitboard, (b.andnot a).bit i = a.bit i := by
    intro a; rw [Bitboard.bit_andnot _ _ hi, hb]; rfl
  cases c <;> simp [playerBB, Color.idx0, hbit]

omit hi hb in
theorem finish (h : KeepBits i p q) (m : Move) :
    Res.Sat (fun x => KeepBits i p x.1) (q.make_move_finish m) := by
  unfold make_move_finish
  refine Res.Sat.any (CompactMove.ofMove m) fun c => Res.Sat.any q.side.flip fun s => ?_
  exact .ok ⟨h.player, h.kind⟩

omit hi hb in
theorem hand (h : KeepBits i p q) (c : Color) (v : Hand) :
    Res.Sat (KeepBits i p) (q.hand_of_a_player_mut_assign c v) := by
  rw [hand_assign_ok]; exact .ok ⟨h.player, h.kind⟩

omit hi hb in
theorem capture (h : KeepBits i p q) (x : Piece) (t : Square) :
    Res.Sat (fun a => KeepBits i p a.1) (q.make_move_capture x t) := by
  unfold make_move_capture
  refine Res.Sat.any (q.piece_at t) fun o => ?_
  cases o with
  | none => exact .ok h
  | some y =>
    refine Res.Sat.any x.color fun c => Res.Sat.any y.color fun d => ?_
    by_cases e : c = d
    · simp only [if_pos e]; exact .ok h
    · simp only [if_neg e]
      refine Res.Sat.any x.color fun c => Res.Sat.any (q.hand_of_a_player c) fun hd =>
        Res.Sat.any y.piece_kind fun k => Res.Sat.any (hd.added _) fun o => ?_
      cases o with
      | none => exact .ok h
      | some v =>
        refine Res.Sat.any x.color fun c => (h.hand c v).bind fun p' h' => .ok h'

omit hb in
theorem make_move (m : Move) (hm : m.Valid)
    (h1 : ∀ s, m.src = some s → s.idx0 ≠ i) (h2 : m.to.idx0 ≠ i) :
    Res.Sat (fun x => KeepBits i p x.1) (p.make_move m) := by
  have h : KeepBits i p p := ⟨fun _ => rfl, fun _ => rfl⟩
  have rej : Res.Sat (fun x => KeepBits i p x.1) (pure (p, (none : Option Unit))) := .ok h
  cases m with
  | Normal s t pr =>
    simp only [PartialPosition.make_move]
    refine Res.Sat.any (p.piece_at s) fun o => ?_
    cases o with
    | none => exact rej
    | some x =>
      refine Res.Sat.any x.color fun c => ?_
      by_cases e : c ≠ p.side
      · simp only [if_pos e]; exact rej
      simp only [if_neg e]
      refine Res.Sat.any (if pr = true then x.promote else Res.ok (some x)) fun o => ?_
      cases o with
      | none => exact rej
      | some y =>
        refine (h.capture x t).bind ?_
        rintro ⟨p', r⟩ h'
        cases r with
        | none => exact .ok h'
        | some u =>
          exact (piece_set hi h' hm.1 (h1 s rfl) none).bind fun q h =>
            (piece_set hi h hm.2 h2 (some y)).bind fun q h => h.finish _
  | Drop x t =>
    simp only [PartialPosition.make_move]
    refine Res.Sat.any x.color fun c => ?_
    by_cases e : c ≠ p.side
    · simp only [if_pos e]; exact rej
    simp only [if_neg e]
    refine Res.Sat.any x.unpromote fun o => ?_
    by_cases e : o.isSome = true
    · simp only [if_pos e]; exact rej
    simp only [if_neg e]
    refine Res.Sat.any (p.piece_at t) fun o => ?_
    by_cases e : o.isSome = true
    · simp only [if_pos e]; exact rej
    simp only [if_neg e]
    refine Res.Sat.any x.color fun c => Res.Sat.any (p.hand_of_a_player c) fun hd =>
      Res.Sat.any x.piece_kind fun k => Res.Sat.any (hd.removed k) fun o => ?_
    cases o with
    | none => exact rej
    | some v =>
      refine Res.Sat.any x.color fun c => ?_
      exact (h.hand c v).bind fun q h => (piece_set hi h hm.2 h2 (some x)).bind fun q h => h.finish _

end KeepBits

/-- C73: moves do not repair a struct: the bits of all squares other than the two of the move stay
what they were, right or wrong. -/
theorem C73_not_repaired (p q : PartialPosition) (m : Move) (hm : m.Valid) (r : Option Unit)
    (e : p.make_move m = .ok (q, r)) (s : Square) (hs : s.Valid) (h1 : m.src ≠ some s) (h2 : m.to ≠ s) :
    (∀ c a b, p.player_bitboard c = .ok a → q.player_bitboard c = .ok b → (a.Mem s ↔ b.Mem s)) ∧
    (∀ k a b, p.piece_kind_bitboard k = .ok a → q.piece_kind_bitboard k = .ok b →
      (a.Mem s ↔ b.Mem s)) := by
  have hk := KeepBits.make_move (p := p) (Square.idx0_lt hs) m hm (by
      intro t ht e
      refine h1 (ht.trans (congrArg some ?_))
      refine Square.idx0_inj ?_ hs e
      cases m <;> cases ht; exact hm.1) (by
      intro e
      refine h2 (Square.idx0_inj ?_ hs e)
      cases m <;> exact hm.2) _ e
  constructor
  · intro c a b ha hb
    rw [player_bitboard_ok] at ha hb; cases ha; cases hb
    rw [Bitboard.mem_iff _ hs, Bitboard.mem_iff _ hs, hk.player]
  · intro c a b ha hb
    rw [piece_kind_bitboard_ok] at ha hb; cases ha; cases hb
    rw [Bitboard.mem_iff _ hs, Bitboard.mem_iff _ hs, hk.kind]

/-! ### Which bytes are dangerous -/

omit P in
private theorem parts_table : ∀ n, 0 < n → n < 256 →
    (1 ≤ n % 16 ∧ n % 16 ≤ 14 ∧ ∃ k c, Piece.to_parts ⟨BitVec.ofNat 8 n⟩ = .ok (k, c)) ∨
    (¬ (1 ≤ n % 16 ∧ n % 16 ≤ 14) ∧ Piece.to_parts ⟨BitVec.ofNat 8 n⟩ = .ub) := by
  have : ∀ n < 256, 0 < n →
    (1 ≤ n % 16 ∧ n % 16 ≤ 14 ∧ ∃ k c, Piece.to_parts ⟨BitVec.ofNat 8 n⟩ = .ok (k, c)) ∨
    (¬ (1 ≤ n % 16 ∧ n % 16 ≤ 14) ∧ Piece.to_parts ⟨BitVec.ofNat 8 n⟩ = .ub) := by decide +kernel
  intro n h1 h2; exact this n h2 h1

omit P in
theorem harmless_cases {p : PartialPosition} {i : Nat} (hi : i < 81) :
    (HarmlessCode p.board[i].val ∧ (p.cell i = none ∨
      ∃ x k c, p.cell i = some x ∧ x.to_parts = .ok (k, c))) ∨
    (¬ HarmlessCode p.board[i].val ∧ ∃ x, p.cell i = some x ∧ x.to_parts = .ub) := by
  rw [cell_lt hi]
  generalize p.board[i] = o
  unfold HarmlessCode OptionPiece.toOption
  by_cases h : o.val = 0
  · rw [if_pos h, h]; simp
  · rw [if_neg h]
    have h0 : o.val.toNat ≠ 0 := fun e => h (BitVec.eq_of_toNat_eq e)
    have := parts_table o.val.toNat (by omega) o.val.isLt
    rw [BitVec.ofNat_toNat, BitVec.setWidth_eq] at this
    rcases this with ⟨h1, h2, k, c, e⟩ | ⟨h1, e⟩
    · exact .inl ⟨.inr ⟨h1, h2⟩, .inr ⟨_, k, c, rfl, e⟩⟩
    · refine .inr ⟨?_, _, rfl, e⟩
      rintro (h2 | h2)
      · exact h0 h2
      · exact h1 h2

/-- Cells that can be taken apart. -/
def Tame (p : PartialPosition) : Prop :=
  ∀ i x, p.cell i = some x → ∃ k c, x.to_parts = .ok (k, c)

omit P in
theorem tame_iff (p : PartialPosition) :
    Tame p ↔ ∀ i, (h : i < 81) → HarmlessCode p.board[i].val := by
  constructor
  · intro h i hi
    rcases harmless_cases (p := p) hi with ⟨h1, _⟩ | ⟨_, x, e, e'⟩
    · exact h1
    · obtain ⟨k, c, e2⟩ := h i x e
      rw [e'] at e2; cases e2
  · intro h i x e
    by_cases hi : i < 81
    · rcases harmless_cases (p := p) hi with ⟨_, h2 | ⟨y, k, c, e1, e2⟩⟩ | ⟨h1, _⟩
      · rw [e] at h2; cases h2
      · rw [e] at e1; cases e1; exact ⟨k, c, e2⟩
      · exact absurd (h i hi) h1
    · simp [cell, hi] at e

/-- Ends normally with a value satisfying `Q`. -/
def Res.Tot {α : Type} (Q : α → Prop) (x : Res α) : Prop := ∃ a, x = .ok a ∧ Q a

omit P in
theorem Res.Tot.bind {α β : Type} {Q : α → Prop} {R : β → Prop} {x : Res α} {f : α → Res β}
    (h : Res.Tot Q x) (hf : ∀ a, Q a → Res.Tot R (f a)) : Res.Tot R (x >>= f) := by
  obtain ⟨a, rfl, h⟩ := h; exact hf a h

omit P in
theorem Res.Tot.ok {α : Type} {Q : α → Prop} {a : α} (h : Q a) : Res.Tot Q (.ok a) := ⟨a, rfl, h⟩

omit P in
theorem tame_congr {p q : PartialPosition} (h : Tame p) (e : q.board = p.board) : Tame q := by
  intro i x hx; refine h i x ?_; unfold cell at hx ⊢; simpa only [e] using hx

theorem tame_piece_set {p : PartialPosition} (h : Tame p) {s : Square} (hs : s.Valid) {o : Option Piece}
    (ho : ∀ x, o = some x → ∃ k c, x.to_parts = .ok (k, c)) : Res.Tot Tame (p.piece_set s o) := by
  obtain ⟨h1, h2⟩ := index_sub hs
  have hi := Square.idx0_lt hs
  unfold PartialPosition.piece_set
  simp only [Square.index_ok hs, Res.bind_ok, BitVec.ofNat_eq_ofNat, h1, h2, piece_at_ok p hs,
    setUnchecked_ok hi, show Bitboard.single_inlined s = .ok (Bitboard.one s.idx0) from Bitboard.single_ok hs]
  generalize Bitboard.one s.idx0 = b
  have hq : ∀ q : PartialPosition, q.board = p.board.set s.idx0 (OptionPiece.ofOption o) hi → Tame q := by
    intro q hb i x hx
    by_cases h81 : i < 81
    · rw [cell_lt h81] at hx
      simp only [hb, Vector.getElem_set] at hx
      split at hx
      · cases o with
        | none => cases hx
        | some y =>
          have : x = y := by
            unfold OptionPiece.ofOption OptionPiece.toOption at hx
            simp only at hx
            split at hx
            · cases hx
            · cases y; cases hx; rfl
          subst this; exact ho x rfl
      · exact h i x (by rw [cell_lt h81, hx])
    · simp [cell, h81] at hx
  refine Res.Tot.bind (Q := fun q => q.board = p.board.set s.idx0 (OptionPiece.ofOption o) hi) ?_ fun q1 e1 =>
    Res.Tot.bind (Q := fun q => q.board = p.board.set s.idx0 (OptionPiece.ofOption o) hi) ?_ fun q2 e2 => ?_
  · cases o with
    | none => exact .ok rfl
    | some x =>
      obtain ⟨k, c, e⟩ := ho x rfl
      simp only [piece_set_player, e, Res.bind_ok]
      cases c <;> exact .ok rfl
  · cases e : p.cell s.idx0 with
    | none => exact .ok e1
    | some x =>
      obtain ⟨k, c, e'⟩ := h _ x e
      simp only [piece_set_remove, Piece.piece_kind, e', PieceKind.array_index_ok, Res.bind_ok, Res.pure_eq,
        toNat_kind, idx_ok k.idx0_lt, idxSet_ok k.idx0_lt]
      exact .ok e1
  · cases o with
    | none => exact .ok (hq _ e2)
    | some x =>
      obtain ⟨k, c, e⟩ := ho x rfl
      simp only [piece_set_insert, Piece.piece_kind, e, PieceKind.array_index_ok, Res.bind_ok, Res.pure_eq,
        toNat_kind, idx_ok k.idx0_lt, idxSet_ok k.idx0_lt, const_BK, const_WK]
      refine .ok (hq _ ?_)
      by_cases e1 : x = Piece.mk' .King .Black <;> by_cases e3 : x = Piece.mk' .King .White
      · simp only [if_pos e1, if_pos e3]; exact e2
      · simp only [if_pos e1, if_neg e3]; exact e2
      · simp only [if_neg e1, if_pos e3]; exact e2
      · simp only [if_neg e1, if_neg e3]; exact e2

theorem tame_finish {p : PartialPosition} (h : Tame p) {m : Move} (hm : m.Valid) :
    Res.Tot (fun x => Tame x.1) (p.make_move_finish m) := by
  obtain ⟨c, h1, h2⟩ := CompactMove.ofMove_ok hm
  simp only [make_move_finish, h1, Res.bind_ok, Color.flip_ok, Res.pure_eq]
  exact .ok (tame_congr h rfl)

theorem tame_make_move {p : PartialPosition} (h : Tame p) {m : Move} (hm : m.Valid) :
    Res.Tot (fun x => Tame x.1) (p.make_move m) := by
  have rej : Res.Tot (fun x => Tame x.1) (pure (p, (none : Option Unit))) := .ok h
  cases m with
  | Normal s t pr =>
    simp only [PartialPosition.make_move, piece_at_ok p hm.1, Res.bind_ok]
    cases e : p.cell s.idx0 with
    | none => exact rej
    | some x =>
      obtain ⟨k, c, ex⟩ := h _ x e
      simp only [Piece.color, ex, Res.bind_ok, Res.pure_eq]
      by_cases ec : c ≠ p.side
      · simp only [if_pos ec]; exact rej
      simp only [if_neg ec]
      refine Res.Tot.bind (Q := fun o : Option Piece => ∀ y, o = some y → ∃ k c, y.to_parts = .ok (k, c)) ?_ ?_
      · cases pr
        · exact .ok (by rintro y ⟨⟩; exact ⟨k, c, ex⟩)
        · simp only [if_true, Piece.promote, ex, Res.bind_ok]
          cases k.promote with
          | none => exact .ok (by rintro y ⟨⟩)
          | some k' =>
            simp only [Piece.new_ok, Res.bind_ok]
            exact .ok (by rintro y ⟨⟩; exact ⟨_, _, Piece.to_parts_mk' _ _⟩)
      · intro o ho
        cases o with
        | none => exact rej
        | some y =>
          refine Res.Tot.bind (Q := fun x => Tame x.1) ?_ ?_
          · simp only [make_move_capture, piece_at_ok p hm.2, Res.bind_ok]
            cases et : p.cell t.idx0 with
            | none => exact .ok h
            | some z =>
              obtain ⟨l, d, ez⟩ := h _ z et
              simp only [Piece.color, Piece.piece_kind, ex, ez, Res.bind_ok, Res.pure_eq]
              split
              · exact .ok h
              · simp only [hand_of_a_player_ok, Res.bind_ok, Hand.added_ok]
                split
                · exact .ok h
                · rw [hand_assign_ok]; exact .ok (tame_congr h rfl)
          · rintro ⟨p', r⟩ h'
            cases r with
            | none => exact .ok h'
            | some u =>
              exact (tame_piece_set h' hm.1 (by rintro x ⟨⟩)).bind fun q hq =>
                (tame_piece_set hq hm.2 ho).bind fun q hq => tame_finish hq hm
  | Drop x t =>
    obtain ⟨k, c, rfl⟩ := Piece.exists_mk' hm.1
    simp only [PartialPosition.make_move, Piece.color_mk', Piece.unpromote_mk', Res.bind_ok,
      piece_at_ok p hm.2, hand_of_a_player_ok, Piece.piece_kind_mk', Hand.removed_ok]
    split
    · exact rej
    split
    · exact rej
    split
    · exact rej
    split
    · exact rej
    · rw [hand_assign_ok, Res.bind_ok]
      refine Res.Tot.bind (Q := Tame) ?_ fun q hq => tame_finish hq hm
      apply tame_piece_set _ hm.2
      · rintro x ⟨⟩; exact ⟨_, _, Piece.to_parts_mk' _ _⟩
      · exact tame_congr h rfl

/-- C73: exactly which board bytes are dangerous to move on: `make_move` is defined and does not panic
for all moves iff every byte of the board is 0 or has low four bits between 1 and 14. -/
theorem C73_moves_exact (p : PartialPosition) :
    (∀ m : Move, m.Valid → ∃ r, p.make_move m = .ok r) ↔
      ∀ i, (h : i < 81) → HarmlessCode p.board[i].val := by
  constructor
  · intro h i hi
    rcases harmless_cases (p := p) hi with ⟨h1, _⟩ | ⟨_, x, e, e'⟩
    · exact h1
    · have hv := Square.ofIdx_valid hi
      obtain ⟨r, er⟩ := h (.Normal (Square.ofIdx i) (Square.ofIdx i) false) ⟨hv, hv⟩
      simp only [PartialPosition.make_move, piece_at_ok p hv, Square.idx0_ofIdx hi, e, Res.bind_ok,
        Piece.color, e', Res.bind_ub] at er
      cases er
  · intro h m hm
    obtain ⟨r, e, _⟩ := tame_make_move ((tame_iff p).2 h) hm
    exact ⟨r, e⟩

/-- C73: they stay harmless. -/
theorem C73_harmless_kept (p q : PartialPosition) (h : ∀ i, (h : i < 81) → HarmlessCode p.board[i].val)
    (m : Move) (hm : m.Valid) (r : Option Unit) (e : p.make_move m = .ok (q, r)) :
    ∀ i, (h : i < 81) → HarmlessCode q.board[i].val := by
  obtain ⟨x, e', h'⟩ := tame_make_move ((tame_iff p).2 h) hm
  rw [e'] at e; cases e
  exact (tame_iff _).1 h'

/-! ### The text -/

section
variable {W : Type} [Write W]

theorem usi_of_parts {x : Piece} {k : PieceKind} {c : Color} (h : x.to_parts = .ok (k, c)) :
    (x.to_usi : FmtM W Unit) = (Piece.mk' k c).to_usi := by
  simp only [Piece.to_usi, h, Piece.to_parts_mk']

theorem usi_bad {x : Piece} (h : x.to_parts = .ub) : (x.to_usi : FmtM W Unit) = FmtM.lift .ub := by
  simp only [Piece.to_usi, h]; rfl

/-- Writes some text and ends normally, or is undefined after some text. -/
def Goes (good : Prop) {α : Type} (Q : α → Prop) (x : FmtM W α) : Prop :=
  (good ∧ ∃ cs a, x = (do wr cs; pure a) ∧ Q a) ∨ (¬ good ∧ ∃ cs, x = (do wr cs; FmtM.lift .ub))

omit P in
theorem lift_ub_bind {α β : Type} (f : α → FmtM W β) : (FmtM.lift .ub >>= f) = FmtM.lift .ub := rfl

theorem Goes.write {good : Prop} {α : Type} {Q : α → Prop} {x : FmtM W α} (h : Goes good Q x)
    (cs : List (List U8)) : Goes good Q (do wr cs; x) := by
  rcases h with ⟨hg, cs', a, rfl, hq⟩ | ⟨hg, cs', rfl⟩
  · exact .inl ⟨hg, cs ++ cs', a, wr_bind_any _ _ _, hq⟩
  · exact .inr ⟨hg, cs ++ cs', wr_bind_any _ _ _⟩

theorem Goes.bind {g1 g2 : Prop} {α β : Type} {Q : α → Prop} {R : β → Prop} {x : FmtM W α}
    {f : α → FmtM W β} (h : Goes g1 Q x) (hf : ∀ a, Q a → Goes g2 R (f a)) :
    Goes (g1 ∧ g2) R (x >>= f) := by
  rcases h with ⟨hg, cs', a, rfl, hq⟩ | ⟨hg, cs', rfl⟩
  · rw [bind_assoc, pure_bind]
    have := (hf a hq).write cs'
    unfold Goes at this ⊢
    simpa only [hg, true_and] using this
  · refine .inr ⟨fun h => hg h.1, cs', ?_⟩
    rw [bind_assoc]; rfl

omit P in
theorem Goes.iff {g1 g2 : Prop} {α : Type} {Q : α → Prop} {x : FmtM W α} (h : Goes g1 Q x)
    (hg : g1 ↔ g2) : Goes g2 Q x := by rwa [propext hg] at h

omit P in
theorem goes_wr (cs : List (List U8)) : Goes True (fun _ => True) (wr cs : FmtM W Unit) :=
  .inl ⟨trivial, cs, (), by simp, trivial⟩

theorem goes_row (p : PartialPosition) {i : Nat} (hi : i < 9) (js : List Nat) (hj : ∀ j ∈ js, j < 9)
    (v : U8) (hv : v.toNat + js.length ≤ 9) :
    Goes (∀ j ∈ js, ∀ x, p.cell (9 * (8 - j) + i) = some x → x.to_parts ≠ .ub) (fun _ => True)
      (to_sfen_row p i js v : FmtM W U8) := by
  induction js generalizing v with
  | nil => exact .inl ⟨by simp, [], v, rfl, trivial⟩
  | cons j js ih =>
    have hj9 := hj j (by simp)
    have hn : nsub 8 j = .ok (8 - j) := by unfold nsub; rw [if_pos (by omega)]
    have hlt : 9 * (8 - j) + i < 81 := by omega
    have hg : getUnchecked p.board (9 * (8 - j) + i) = .ok p.board[9 * (8 - j) + i] := by
      unfold getUnchecked; rw [dif_pos hlt]
    rw [List.length_cons] at hv
    have ih' := ih (fun j h => hj j (by simp [h]))
    rw [to_sfen_row]
    simp only [hn, hg, FmtM.lift_ok, pure_bind, ← cell_lt hlt, List.mem_cons, forall_eq_or_imp]
    rcases harmless_cases (p := p) hlt with ⟨_, e | ⟨x, k, c, e, ex⟩⟩ | ⟨_, x, e, ex⟩
    · rw [e]
      have ha : (cadd v 1 : Res U8) = .ok (v + 1) := by
        apply cadd_ok
        have : (1 : U8).toNat = 1 := rfl
        omega
      simp only [ha, FmtM.lift_ok, pure_bind]
      have hv1 : (v + 1).toNat = v.toNat + 1 := by
        rw [BitVec.toNat_add]
        have : (1 : U8).toNat = 1 := rfl
        omega
      exact (ih' (v + 1) (by omega)).iff (by simp)
    · rw [e]
      have h00 : (0 : U8).toNat = 0 := rfl
      simp only [usi_of_parts ex, piece_to_usi]
      split
      · rw [write_u8_ok]
        exact (((ih' 0 (by omega)).write _).write _).iff (by simp [ex])
      · exact ((ih' v (by omega)).write _).iff (by simp [ex])
    · rw [e]
      simp only [usi_bad ex]
      refine .inr ⟨by simp [ex], ?_⟩
      split
      · rw [write_u8_ok]; exact ⟨_, rfl⟩
      · exact ⟨[], rfl⟩

theorem goes_board (p : PartialPosition) (is : List Nat) (h : ∀ i ∈ is, i < 9) :
    Goes (∀ i ∈ is, ∀ j < 9, ∀ x, p.cell (9 * (8 - j) + i) = some x → x.to_parts ≠ .ub) (fun _ => True)
      (to_sfen_board p is : FmtM W Unit) := by
  induction is with
  | nil => exact .inl ⟨by simp, [], (), rfl, trivial⟩
  | cons i is ih =>
    have ih := ih fun j hj => h j (by simp [hj])
    rw [to_sfen_board]
    refine ((goes_row (W := W) p (h i (by simp)) (List.range 9) (by simp) 0 (by decide)).bind
      fun v _ => ?_).iff (by simp only [List.mem_cons, forall_eq_or_imp, List.mem_range]; rfl)
    rw [write_ascii_byte_ok (by decide), write_u8_ok]
    split <;> split
    · exact (ih.write _).write _
    · exact ih.write _
    · exact ih.write _
    · exact ih

end

/-- C73: exactly which board bytes are dangerous to print: the text is produced iff all are harmless,
otherwise the call is undefined. -/
theorem C73_text_exact (p : PartialPosition) :
    ((∃ txt, p.to_sfen_owned = .ok txt) ↔ ∀ i, (h : i < 81) → HarmlessCode p.board[i].val) ∧
    ((¬ ∃ txt, p.to_sfen_owned = .ok txt) → p.to_sfen_owned = .ub) := by
  have hb := goes_board (W := List U8) p (List.range 9) (by simp)
  have ht : ∃ cs, (p.to_sfen : FmtM (List U8) Unit) = (do to_sfen_board p (List.range 9); wr cs) := by
    refine ⟨[ascii " "] ++ ([colorText p.side] ++ ([ascii " "] ++
      (singly (handsText p.hands[0] p.hands[1]) ++ ([ascii " "] ++ singly (decimal p.ply.toNat))))), ?_⟩
    unfold to_sfen
    rw [write_ascii_byte_ok (by decide), color_to_usi, hand_to_usi, write_u16_ok]
    simp only [wr_bind]
    rfl
  obtain ⟨cs, ht⟩ := ht
  have hg := hb.bind (g2 := True) fun _ _ => goes_wr cs
  rw [← ht] at hg
  have hiff : (∀ i ∈ List.range 9, ∀ j < 9, ∀ x, p.cell (9 * (8 - j) + i) = some x → x.to_parts ≠ .ub) ↔
      ∀ i, (h : i < 81) → HarmlessCode p.board[i].val := by
    constructor
    · intro h i hi
      rcases harmless_cases (p := p) hi with ⟨h1, _⟩ | ⟨_, x, e, e'⟩
      · exact h1
      · refine absurd e' (h (i % 9) (List.mem_range.2 (by omega)) (8 - i / 9) (by omega) x ?_)
        rw [show 9 * (8 - (8 - i / 9)) + i % 9 = i by omega, e]
    · intro h i _ j _ x e e'
      obtain ⟨k, c, e2⟩ := (tame_iff p).2 h _ x e
      rw [e'] at e2; cases e2
  rw [← hiff]
  rcases hg with ⟨⟨hg, _⟩, cs', a, e, _⟩ | ⟨hg, cs', e⟩
  · have he : p.to_sfen_owned = .ok cs'.flatten := by
      unfold to_sfen_owned
      rw [e]
      show (FmtM.bind (writeAll cs') (fun _ => pure a) [] >>= _) = _
      unfold FmtM.bind
      rw [writeAll_string]; simp
      rfl
    exact ⟨⟨fun _ => hg, fun _ => ⟨_, he⟩⟩, fun hn => absurd ⟨_, he⟩ hn⟩
  · have he : p.to_sfen_owned = .ub := by
      unfold to_sfen_owned
      rw [e]
      show (FmtM.bind (writeAll cs') (fun _ => FmtM.lift .ub) [] >>= _) = _
      unfold FmtM.bind
      rw [writeAll_string]; rfl
    rw [he]
    exact ⟨⟨fun h => by (obtain ⟨_, h⟩ := h; cases h), fun h => absurd ⟨h, trivial⟩ hg⟩, fun _ => rfl⟩

/-! ### The unused byte of a hand -/

theorem board_text {p q : PartialPosition} (h : p.board = q.board) {W : Type} [Write W] (is : List Nat) :
    (to_sfen_board p is : FmtM W Unit) = to_sfen_board q is := by
  have hr : ∀ i js v, (to_sfen_row p i js v : FmtM W U8) = to_sfen_row q i js v := by
    intro i js
    induction js with
    | nil => intro v; rfl
    | cons j js ih => intro v; simp only [to_sfen_row, h, ih]
  induction is with
  | nil => rfl
  | cons j js ih => simp only [to_sfen_board, hr, ih]

/-- C73: why the eighth byte of a hand must be zero: with empty hands and a nonzero eighth byte the
position shows the same, but its text lacks the `-` for the empty hands. -/
theorem C73_eighth_byte (p : PartialPosition) (h : p.Legible)
    (hh : ∀ c, p.hand_of_a_player c = .ok Hand.new) (c : Color) (v : U8) (hv : v ≠ 0) :
    let q := { p with hands := p.hands.set c.idx0 ⟨Hand.new.cells.set 7 v⟩ c.idx0_lt }
    (∀ x : Piece, x.Valid → q.hand x = p.hand x) ∧
    ∃ a, p.to_sfen_owned = .ok (a ++ ascii " - " ++ decimal p.get_ply.toNat) ∧
      q.to_sfen_owned = .ok (a ++ ascii "  " ++ decimal p.get_ply.toNat) := by
  intro q
  have hn : ∀ c, p.handOf c = Hand.new := by
    intro c; have := hh c; rw [hand_of_a_player_ok] at this; exact Res.ok.inj this
  have hq : ∀ d, q.handOf d = if c = d then ⟨Hand.new.cells.set 7 v⟩ else Hand.new := by
    intro d
    refine (handOf_setHand p c d _).trans ?_
    rw [hn]
  constructor
  · intro x hx
    obtain ⟨k, d, rfl⟩ := Piece.exists_mk' hx
    rw [hand_ok, hand_ok, hn, hq]
    split
    · rw [Hand.count_ok, Hand.count_ok]
      congr 1
      by_cases hk : k.InHand
      · rw [dif_pos hk, dif_pos hk]
        have := (Hand.inHand_iff k).1 hk
        unfold Hand.cell
        simp only [Vector.getElem_set]
        rw [if_neg (by omega)]
      · rw [dif_neg hk, dif_neg hk]
    · rfl
  · obtain ⟨r, hr, tw⟩ := C73_twin p h
    have hb := board_loop_ok (W := List U8) (reach_ok hr) (List.range 9) (by simp)
    have key : ∀ q : PartialPosition, q.board = p.board → q.to_sfen_owned =
        .ok (((List.range 9).flatMap fun i => rankChunks 0 (r.rankCells (i + 1)) ++
          (if i < 8 then [ascii "/"] else [])).flatten ++ ascii " " ++ colorText q.side ++ ascii " " ++
          handsText (q.handOf .Black) (q.handOf .White) ++ ascii " " ++ decimal q.ply.toNat) := by
      intro q hqb
      have hb' := (board_text (hqb.trans tw.board) (List.range 9)).trans hb
      have : (q.to_sfen : FmtM (List U8) Unit) = wr (((List.range 9).flatMap fun i =>
          rankChunks 0 (r.rankCells (i + 1)) ++ (if i < 8 then [ascii "/"] else [])) ++
          ([ascii " "] ++ ([colorText q.side] ++ ([ascii " "] ++
          (singly (handsText q.hands[0] q.hands[1]) ++ ([ascii " "] ++ singly (decimal q.ply.toNat))))))) := by
        unfold to_sfen
        rw [hb', write_ascii_byte_ok (by decide), color_to_usi, hand_to_usi, write_u16_ok]
        simp only [wr_bind]
        rfl
      unfold to_sfen_owned
      rw [this]
      unfold wr
      rw [writeAll_string]
      simp only [Res.bind_ok, Res.pure_eq, List.nil_append, List.flatten_append, List.flatten_cons,
        List.flatten_nil, List.append_nil, List.append_assoc]
      have hs : ∀ l, (singly l).flatten = l := by
        intro l; unfold singly; induction l with
        | nil => rfl
        | cons x l ih => simp_all
      rw [hs, hs]; rfl
    generalize ((List.range 9).flatMap fun i => rankChunks 0 (r.rankCells (i + 1)) ++
          (if i < 8 then [ascii "/"] else [])).flatten = bt at key
    refine ⟨bt ++ ascii " " ++ colorText p.side, ?_, ?_⟩
    · rw [key p rfl, hn, hn]
      simp only [List.append_assoc]
      rfl
    · rw [key q rfl, hq, hq]
      have hne : (⟨Hand.new.cells.set 7 v⟩ : Hand) ≠ Hand.new := by
        intro e
        have := congrArg (fun h : Hand => h.cells[7]) e
        simp at this
        exact hv this
      have ht : ∀ d, handText ⟨Hand.new.cells.set 7 v⟩ d = [] := by
        intro d
        unfold handText
        simp [Hand.new, countedText]
      have ht0 : ∀ d, handText Hand.new d = [] := by decide +kernel
      have : handsText (if c = .Black then ⟨Hand.new.cells.set 7 v⟩ else Hand.new)
          (if c = .White then ⟨Hand.new.cells.set 7 v⟩ else Hand.new) = [] := by
        unfold handsText
        cases c <;> simp [hne, ht, ht0]
      rw [this]
      simp only [List.append_assoc, List.append_nil]
      rfl

/-! ### Examples -/

/-- A position as a careless C program fills it in: board, hands, side and move number
right, bitboards and king squares zero. -/
def PartialPosition.careless (p : PartialPosition) : PartialPosition := { p with
  player_bb := Vector.replicate 2 ⟨0, 0⟩, piece_bb := Vector.replicate 14 ⟨0, 0⟩,
  king_square := Vector.replicate 2 ⟨0⟩ }

theorem careless_legible {p : PartialPosition} (h : p.Legible) : p.careless.Legible := ⟨h.board, h.hands⟩

theorem careless_cell (p : PartialPosition) (i : Nat) : p.careless.cell i = p.cell i := rfl

theorem careless_side (p : PartialPosition) : p.careless.side_to_move = p.side := rfl

theorem careless_playerBB (p : PartialPosition) (c : Color) : p.careless.playerBB c = ⟨0, 0⟩ := by
  cases c <;> rfl

/-- Non-vacuity of `C73_moves`: 7g7f is accepted; and of `C73_not_repaired`: afterwards only 7f is
occupied according to the bitboards, while 2g still holds a pawn. -/
example : ∃ p', sp0.careless.make_move (.Normal (Square.at 7 7) (Square.at 7 6) false) = .ok (p', some ()) ∧
    p'.piece_at (Square.at 2 7) = .ok (some (Piece.mk' .Pawn .Black)) ∧
    ¬ p'.occupied_bitboard.Mem (Square.at 2 7) := by
  have hc := careless_cell sp0
  have e0 : sp0.cell (Square.at 7 7).idx0 = some (Piece.mk' .Pawn .Black) ∧
      sp0.cell (Square.at 7 6).idx0 = none ∧ sp0.cell (Square.at 2 7).idx0 = some (Piece.mk' .Pawn .Black) ∧
      sp0.side = .Black := by decide +kernel
  have hm : (Move.Normal (Square.at 7 7) (Square.at 7 6) false).Valid := by
    exact ⟨by decide, by decide⟩
  have hleg : sp0.careless.Legible := by
    have ok := reach_ok (ApiReach.startpos startpos_ok)
    exact careless_legible (legible_of ok.cells ok.hand)
  have hside : sp0.careless.side_to_move = .Black := (careless_side sp0).trans e0.2.2.2
  rcases C73_moves _ hleg _ hm with ⟨_, p', e, hp, _⟩ | ⟨hn, _⟩
  · have hk := C73_not_repaired _ p' _ hm _ e (Square.at 2 7) (by decide) (by decide) (by decide)
    refine ⟨p', e, ?_, ?_⟩
    · rw [hp.board.2.2 (Square.at 2 7) (by decide) (by decide) (by decide), piece_at_ok _ (by decide), hc,
        e0.2.2.1]
    · rw [Bitboard.mem_iff _ (by decide)]
      show ¬ ((p'.playerBB .Black).bitor (p'.playerBB .White)).bit _ = true
      rw [Bitboard.bit_bitor]
      have h0 : ∀ c, (p'.playerBB c).bit (Square.at 2 7).idx0 = false := by
        intro c
        have := hk.1 c _ _ (player_bitboard_ok _ _) (player_bitboard_ok _ _)
        rw [Bitboard.mem_iff _ (by decide), Bitboard.mem_iff _ (by decide)] at this
        have e : (sp0.careless.playerBB c).bit (Square.at 2 7).idx0 = false := by
          rw [careless_playerBB]; decide +kernel
        rw [e] at this
        cases h : (p'.playerBB c).bit (Square.at 2 7).idx0
        · rfl
        · exact absurd (this.2 h) (by decide)
      rw [h0, h0]; decide
  · refine absurd ⟨.Pawn, ?_, .inl ?_, fun e => by cases e⟩ hn
    · rw [hside, piece_at_ok _ (by decide), hc, e0.1]
    · rw [piece_at_ok _ (by decide), hc, e0.2.1]

/-- Non-vacuity of `C73_twin`, `C73_same_view` and `C73_session`: the carelessly filled starting
position has a properly made twin, and 7g7f 3c3d are played alike on both. -/
example : ∃ c1 c2 q p' q' vs, c1.encodes (.Normal (Square.at 7 7) (Square.at 7 6) false) ∧
    c2.encodes (.Normal (Square.at 3 3) (Square.at 3 4) false) ∧ ApiReach q ∧
    (∀ s, sp0.careless.piece_at s = q.piece_at s) ∧ sp0.careless.calls [c1, c2] = .ok (p', vs) ∧
    q.calls [c1, c2] = .ok (q', vs) ∧ p'.Twin sp0.careless.wrong q' := by
  have ok := reach_ok (ApiReach.startpos startpos_ok)
  obtain ⟨q, hq, tw⟩ := C73_twin _ (careless_legible (legible_of ok.cells ok.hand))
  have h1 : (Move.Normal (Square.at 7 7) (Square.at 7 6) false).Valid := ⟨by decide, by decide⟩
  have h2 : (Move.Normal (Square.at 3 3) (Square.at 3 4) false).Valid := ⟨by decide, by decide⟩
  obtain ⟨c1, _, e1⟩ := CompactMove.ofMove_ok h1
  obtain ⟨c2, _, e2⟩ := CompactMove.ofMove_ok h2
  obtain ⟨p', q', vs, _, h1, h2, h3, _⟩ := C73_session _ q _ hq tw [c1, c2] (by
      intro c hc
      simp only [List.mem_cons, List.not_mem_nil, or_false] at hc
      rcases hc with rfl | rfl
      · exact ⟨_, h1, e1⟩
      · exact ⟨_, h2, e2⟩)
  exact ⟨c1, c2, q, p', q', vs, e1, e2, hq, (C73_same_view _ _ _ tw).1, h1, h2, h3⟩

/-- Non-vacuity of `C73_eighth_byte`: the starting position. -/
example : sp0.Legible ∧ ∀ c, sp0.hand_of_a_player c = .ok Hand.new := by
  have ok := reach_ok (ApiReach.startpos startpos_ok)
  have hh : ∀ d : Build, ∀ c, @hand_of_a_player ⟨d⟩ sp0 c = .ok Hand.new := by decide +kernel
  exact ⟨legible_of ok.cells ok.hand, hh P.build⟩

/-- Non-vacuity of the dangerous case: 15 (no kind 15), 16 and 32 (kind 0) are dangerous bytes, 33 is
not, although it is no documented code. -/
example : ¬ HarmlessCode 15 ∧ ¬ HarmlessCode 16 ∧ ¬ HarmlessCode 32 ∧ HarmlessCode 33 ∧ ¬ CellCode 33 := by
  unfold HarmlessCode CellCode; decide

/-- So a struct with such a byte has no text. -/
example : ({ sp0 with board := sp0.board.set 0 ⟨15⟩ } : PartialPosition).to_sfen_owned = .ub := by
  refine (C73_text_exact _).2 fun h => ?_
  have := ((C73_text_exact _).1.1 h) 0 (by decide)
  simp only [Vector.getElem_set] at this
  exact absurd this (by unfold HarmlessCode; decide)

end ShogiCore
