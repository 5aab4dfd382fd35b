import Verif.Lemmas.Bitboard
import Verif.Lemmas.Hand
import Verif.Lemmas.Move

set_option linter.unusedSectionVars false

namespace ShogiCore

theorem Hand.setCell_valid {h : Hand} (v : h.Valid) (k : PieceKind) (hk : k.InHand) (x : U8) :
    (h.setCell k hk x).Valid := (Hand.setCell_7 h k hk x).trans v

theorem Hand.new_valid : Hand.new.Valid := by decide

theorem OptionPiece.toOption_ofOption {o : Option Piece} (h : ∀ x, o = some x → x.Valid) :
    (OptionPiece.ofOption o).toOption = o := by
  cases o with
  | none => rfl
  | some x =>
    have hv := h x rfl
    have : x.val ≠ 0#8 := by intro e; unfold Piece.Valid at hv; rw [e] at hv; simp at hv
    simp [ofOption, toOption, this]

theorem OptionPiece.ofOption_toOption (o : OptionPiece) : ofOption o.toOption = o := by
  unfold ofOption toOption
  by_cases h : o.val = 0
  · rw [if_pos h]; cases o; simp_all
  · rw [if_neg h]

theorem OptionSquare.toOption_ofOption_some {s : Square} (h : s.Valid) :
    (OptionSquare.ofOption (some s)).toOption = some s := by
  have : s.val ≠ 0#8 := by intro e; unfold Square.Valid at h; rw [e] at h; simp at h
  simp [ofOption, toOption, this]

namespace PartialPosition

/-- Content of the cell with array index `i`. -/
def cell (p : PartialPosition) (i : Nat) : Option Piece :=
  if h : i < 81 then p.board[i].toOption else none

/-- The hand of a player. -/
def handOf (p : PartialPosition) (c : Color) : Hand := p.hands[c.idx0]'c.idx0_lt
/-- The cached king square of a player. -/
def kingOf (p : PartialPosition) (c : Color) : OptionSquare := p.king_square[c.idx0]'c.idx0_lt
/-- The bitboard of a player. -/
def playerBB (p : PartialPosition) (c : Color) : Bitboard := p.player_bb[c.idx0]'c.idx0_lt
/-- The bitboard of a kind. -/
def kindBB (p : PartialPosition) (k : PieceKind) : Bitboard := p.piece_bb[k.idx0]'k.idx0_lt

/-- The representation invariant. -/
structure Ok (p : PartialPosition) : Prop where
  cells : ∀ i x, p.cell i = some x → x.Valid
  player : ∀ c, (p.playerBB c).Canonical
  player_bit : ∀ c, ∀ i < 81, (p.playerBB c).bit i = true ↔ ∃ k, p.cell i = some (Piece.mk' k c)
  kind : ∀ k, (p.kindBB k).Canonical
  kind_bit : ∀ k, ∀ i < 81, (p.kindBB k).bit i = true ↔ ∃ c, p.cell i = some (Piece.mk' k c)
  hand : ∀ c, (p.handOf c).Valid
  last : ∀ m, p.last_move.toOption = some m → m.Valid
  king : ∀ c s, (p.kingOf c).toOption = some s → s.Valid

theorem cell_lt {p : PartialPosition} {i : Nat} (h : i < 81) : p.cell i = p.board[i].toOption := by
  simp [cell, h]

theorem board_eq {p : PartialPosition} {i : Nat} (h : i < 81) :
    p.board[i] = OptionPiece.ofOption (p.cell i) := by
  rw [cell_lt h, OptionPiece.ofOption_toOption]

theorem Ok.cases {p : PartialPosition} (h : p.Ok) (i : Nat) :
    p.cell i = none ∨ ∃ k c, p.cell i = some (Piece.mk' k c) := by
  cases e : p.cell i with
  | none => exact .inl rfl
  | some x =>
    obtain ⟨k, c, rfl⟩ := Piece.exists_mk' (h.cells i x e)
    exact .inr ⟨k, c, rfl⟩

/-- Two positions satisfying the invariant are equal when they agree on the primary data. -/
theorem Ok.ext {p q : PartialPosition} (hp : p.Ok) (hq : q.Ok) (side : p.side = q.side)
    (ply : p.ply = q.ply) (hand : ∀ c, p.handOf c = q.handOf c) (cell : ∀ i < 81, p.cell i = q.cell i)
    (last : p.last_move = q.last_move) (king : ∀ c, p.kingOf c = q.kingOf c) : p = q := by
  have e1 : p.hands = q.hands := by
    apply Vector.ext; intro i hi
    have : i = 0 ∨ i = 1 := by omega
    rcases this with rfl | rfl
    · exact hand .Black
    · exact hand .White
  have e2 : p.king_square = q.king_square := by
    apply Vector.ext; intro i hi
    have : i = 0 ∨ i = 1 := by omega
    rcases this with rfl | rfl
    · exact king .Black
    · exact king .White
  have e3 : p.board = q.board := by
    apply Vector.ext; intro i hi
    rw [board_eq hi, board_eq hi, cell i hi]
  have e4 : p.player_bb = q.player_bb := by
    have : ∀ c, p.playerBB c = q.playerBB c := by
      intro c
      apply Bitboard.ext_bit (hp.player c) (hq.player c)
      intro i hi
      rw [Bool.eq_iff_iff, hp.player_bit c i hi, hq.player_bit c i hi, cell i hi]
    apply Vector.ext; intro i hi
    have h2 : i = 0 ∨ i = 1 := by omega
    rcases h2 with rfl | rfl
    · exact this .Black
    · exact this .White
  have e5 : p.piece_bb = q.piece_bb := by
    have h5 : ∀ k, p.kindBB k = q.kindBB k := by
      intro k
      apply Bitboard.ext_bit (hp.kind k) (hq.kind k)
      intro i hi
      rw [Bool.eq_iff_iff, hp.kind_bit k i hi, hq.kind_bit k i hi, cell i hi]
    apply Vector.ext; intro i hi
    have : ∃ k : PieceKind, k.idx0 = i := by
      have : ∀ i < 14, ∃ k : PieceKind, k.idx0 = i := by decide +kernel
      exact this i hi
    obtain ⟨k, rfl⟩ := this
    exact h5 k
  cases p; cases q; simp_all

/-- Changing the fields other than the board keeps the invariant. -/
theorem Ok.update {p q : PartialPosition} (h : p.Ok) (hb : q.board = p.board)
    (hpl : q.player_bb = p.player_bb) (hk : q.piece_bb = p.piece_bb)
    (hand : ∀ c, (q.handOf c).Valid) (last : ∀ m, q.last_move.toOption = some m → m.Valid)
    (king : ∀ c s, (q.kingOf c).toOption = some s → s.Valid) : q.Ok := by
  have hc : ∀ i, q.cell i = p.cell i := by intro i; unfold cell; rw [hb]
  have hpb : ∀ c, q.playerBB c = p.playerBB c := by intro c; unfold playerBB; simp only [hpl]
  have hkb : ∀ c, q.kindBB c = p.kindBB c := by intro c; unfold kindBB; simp only [hk]
  exact {
    cells := fun i x e => h.cells i x (hc i ▸ e)
    player := fun c => hpb c ▸ h.player c
    player_bit := fun c i hi => by rw [hpb, hc]; exact h.player_bit c i hi
    kind := fun c => hkb c ▸ h.kind c
    kind_bit := fun c i hi => by rw [hkb, hc]; exact h.kind_bit c i hi
    hand := hand, last := last, king := king }

/-! ### Accessors -/

variable [P : Profile]

theorem index_sub {s : Square} (hs : s.Valid) :
    csub s.val 1#8 = .ok (s.val - 1#8) ∧ (s.val - 1#8).toNat = s.idx0 := by
  unfold Square.Valid at hs
  refine ⟨csub_ok (by simpa using hs.1), ?_⟩
  rw [BitVec.toNat_sub, Square.idx0]; simp; omega

theorem PartialPosition_piece_at_ok (p : PartialPosition) {s : Square} (hs : s.Valid) :
    p.PartialPosition_piece_at s = .ok (OptionPiece.ofOption (p.cell s.idx0)) := by
  obtain ⟨h1, h2⟩ := index_sub hs
  have := Square.idx0_lt hs
  simp only [PartialPosition_piece_at, Square.index_ok hs, Res.bind_ok, BitVec.ofNat_eq_ofNat, h1,
    h2, getUnchecked_ok this, board_eq this]

theorem piece_at_ok (p : PartialPosition) {s : Square} (hs : s.Valid) :
    p.piece_at s = .ok (p.cell s.idx0) := by
  have := Square.idx0_lt hs
  simp only [piece_at, PartialPosition_piece_at_ok p hs, Res.bind_ok, Res.pure_eq]
  rw [← board_eq this, cell_lt this]

theorem color_sub (c : Color) : ∃ v, csub c.toU8 1 = .ok v ∧ v.toNat = c.idx0 := by
  have : ∀ c : Color, csub c.toU8 1 = .ok (c.toU8 - 1) ∧ (c.toU8 - 1).toNat = c.idx0 := by
    intro c
    refine ⟨csub_ok ?_, ?_⟩ <;> cases c <;> decide
  exact ⟨_, this c⟩

theorem hand_of_a_player_ok (p : PartialPosition) (c : Color) :
    p.hand_of_a_player c = .ok (p.handOf c) := by
  obtain ⟨v, h1, h2⟩ := color_sub c
  simp only [hand_of_a_player, h1, Res.bind_ok, h2, getUnchecked_ok c.idx0_lt, handOf]

theorem hand_assign_ok (p : PartialPosition) (c : Color) (h : Hand) :
    p.hand_of_a_player_mut_assign c h =
      .ok { p with hands := p.hands.set c.idx0 h c.idx0_lt } := by
  obtain ⟨v, h1, h2⟩ := color_sub c
  simp only [hand_of_a_player_mut_assign, h1, Res.bind_ok, h2, setUnchecked_ok c.idx0_lt,
    Res.pure_eq]

theorem toNat_color (c : Color) : (BitVec.ofNat Profile.bits c.idx0).toNat = c.idx0 :=
  usize_toNat (Nat.lt_trans c.idx0_lt (by decide))
theorem toNat_kind (k : PieceKind) : (BitVec.ofNat Profile.bits k.idx0).toNat = k.idx0 :=
  usize_toNat (Nat.lt_trans k.idx0_lt (by decide))

theorem player_bitboard_ok (p : PartialPosition) (c : Color) :
    p.player_bitboard c = .ok (p.playerBB c) := by
  simp only [player_bitboard, Color.array_index_ok, Res.bind_ok, toNat_color, idx_ok c.idx0_lt,
    playerBB]

theorem piece_kind_bitboard_ok (p : PartialPosition) (k : PieceKind) :
    p.piece_kind_bitboard k = .ok (p.kindBB k) := by
  simp only [piece_kind_bitboard, PieceKind.array_index_ok, Res.bind_ok, toNat_kind,
    idx_ok k.idx0_lt, kindBB]

theorem piece_bitboard_ok (p : PartialPosition) (k : PieceKind) (c : Color) :
    p.piece_bitboard (Piece.mk' k c) = .ok ((p.kindBB k).bitand (p.playerBB c)) := by
  simp only [piece_bitboard, Piece.to_parts_mk', PieceKind.array_index_ok, Color.array_index_ok,
    Res.bind_ok, toNat_kind, toNat_color, idx_ok k.idx0_lt, idx_ok c.idx0_lt, kindBB, playerBB,
    Res.pure_eq]

theorem king_position_ok (p : PartialPosition) (c : Color) :
    p.king_position c = .ok (p.kingOf c).toOption := by
  simp only [king_position, Color.array_index_ok, Res.bind_ok, toNat_color, idx_ok c.idx0_lt,
    kingOf, Res.pure_eq]

theorem hand_ok (p : PartialPosition) (k : PieceKind) (c : Color) :
    p.hand (Piece.mk' k c) = (p.handOf c).count k := by
  simp only [hand, Piece.color_mk', Piece.piece_kind_mk', Res.bind_ok, hand_of_a_player_ok]

/-! ### `piece_set` -/

private theorem const_table : ∀ d : Build, @Piece.const ⟨d⟩ "B_K" = .ok (Piece.mk' .King .Black) ∧
    @Piece.const ⟨d⟩ "W_K" = .ok (Piece.mk' .King .White) := by decide +kernel

theorem const_BK : Piece.const "B_K" = .ok (Piece.mk' .King .Black) :=
  profile_ind (motive := fun P => @Piece.const P "B_K" = _) (fun d => (const_table d).1) P
theorem const_WK : Piece.const "W_K" = .ok (Piece.mk' .King .White) :=
  profile_ind (motive := fun P => @Piece.const P "W_K" = _) (fun d => (const_table d).2) P

theorem piece_set_player_mk (p : PartialPosition) (b : Bitboard) (k : PieceKind) (c : Color) :
    p.piece_set_player b (some (Piece.mk' k c)) = .ok { p with
      player_bb := p.player_bb.set c.idx0 ((p.playerBB c).bitor b) c.idx0_lt } := by
  cases c <;> simp only [piece_set_player, Piece.to_parts_mk', Res.bind_ok, Res.pure_eq] <;> rfl

theorem piece_set_remove_mk (p : PartialPosition) (b : Bitboard) (k : PieceKind) (c : Color) :
    p.piece_set_remove b (some (Piece.mk' k c)) = .ok { p with
      piece_bb := p.piece_bb.set k.idx0 (b.andnot (p.kindBB k)) k.idx0_lt } := by
  simp only [piece_set_remove, Piece.piece_kind_mk', PieceKind.array_index_ok, Res.bind_ok,
    toNat_kind, idx_ok k.idx0_lt, idxSet_ok k.idx0_lt, Res.pure_eq, kindBB]

theorem piece_set_insert_mk (p : PartialPosition) (s : Square) (b : Bitboard) (k : PieceKind)
    (c : Color) :
    p.piece_set_insert s b (some (Piece.mk' k c)) = .ok { p with
      piece_bb := p.piece_bb.set k.idx0 ((p.kindBB k).bitor b) k.idx0_lt
      king_square := if k = .King then
        p.king_square.set c.idx0 (.ofOption (some s)) c.idx0_lt else p.king_square } := by
  simp only [piece_set_insert, Piece.piece_kind_mk', PieceKind.array_index_ok, Res.bind_ok,
    toNat_kind, idx_ok k.idx0_lt, idxSet_ok k.idx0_lt, Res.pure_eq, kindBB, const_BK, const_WK]
  by_cases hk : k = .King
  · subst hk
    cases c
    · have h1 : (Piece.mk' .King .Black = Piece.mk' .King .White) = False := by decide
      simp only [if_true, h1, if_false]; rfl
    · have h1 : (Piece.mk' .King .White = Piece.mk' .King .Black) = False := by decide
      simp only [if_true, h1, if_false]; rfl
  · have h1 : ∀ d, (Piece.mk' k c = Piece.mk' .King d) = False := by
      intro d; simp only [eq_iff_iff, iff_false]; intro e; exact hk (Piece.mk'_inj e).1
    simp only [h1, hk, if_false]; rfl

/-- The result of `piece_set`, up to the primary data. -/
structure SetTo (p q : PartialPosition) (s : Square) (o : Option Piece) : Prop where
  ok : q.Ok
  cell : ∀ i < 81, q.cell i = if i = s.idx0 then o else p.cell i
  side : q.side = p.side
  ply : q.ply = p.ply
  hands : q.hands = p.hands
  last : q.last_move = p.last_move
  king : ∀ c, q.kingOf c =
    if o = some (Piece.mk' .King c) then .ofOption (some s) else p.kingOf c

omit P in
private theorem getElem_set_idx {α : Type} {n : Nat} (v : Vector α n) (i j : Nat) (x : α)
    (hi : i < n) (hj : j < n) : (v.set i x hi)[j] = if i = j then x else v[j] := by
  rw [Vector.getElem_set]

private theorem toOption_some_valid (s : Square) (hs : s.Valid) (t : Square)
    (h : (OptionSquare.ofOption (some s)).toOption = some t) : t.Valid := by
  rw [OptionSquare.toOption_ofOption_some hs] at h; cases h; exact hs

theorem piece_set_ok {p : PartialPosition} (h : p.Ok) {s : Square} (hs : s.Valid)
    {o : Option Piece} (ho : ∀ x, o = some x → x.Valid) :
    ∃ q, p.piece_set s o = .ok q ∧ SetTo p q s o := by
  obtain ⟨h1, h2⟩ := index_sub hs
  have h81 := Square.idx0_lt hs
  have hsingle : Bitboard.single_inlined s = .ok (Bitboard.one s.idx0) := Bitboard.single_ok hs
  simp only [piece_set, Square.index_ok hs, Res.bind_ok, BitVec.ofNat_eq_ofNat, h1, h2,
    piece_at_ok p hs, setUnchecked_ok h81, hsingle]
  -- the position after the first step
  have hone := Bitboard.one_canonical h81
  have hbit := fun j hj => Bitboard.bit_one h81 j hj
  generalize Bitboard.one s.idx0 = b at *
  generalize hq : ({ p with
      board := p.board.set s.idx0 (OptionPiece.ofOption o) h81
      player_bb := (p.player_bb.set 0 (b.andnot p.player_bb[0])).set 1
        (b.andnot (p.player_bb.set 0 (b.andnot p.player_bb[0]))[1]) } : PartialPosition) = q
  have hcell : ∀ i < 81, q.cell i = if i = s.idx0 then o else p.cell i := by
    intro i hi
    rw [cell_lt hi, ← hq]
    simp only [Vector.getElem_set]
    by_cases e : s.idx0 = i
    · rw [if_pos e, if_pos e.symm, OptionPiece.toOption_ofOption ho]
    · rw [if_neg e, if_neg (fun h => e h.symm), cell_lt hi]
  have hpl : ∀ c, q.playerBB c = b.andnot (p.playerBB c) := by
    intro c; rw [← hq]; cases c <;> simp [playerBB, Color.idx0]
  have hki : ∀ k, q.kindBB k = p.kindBB k := by intro k; rw [← hq]; rfl
  have hks : q.king_square = p.king_square := by rw [← hq]
  have hrest : q.side = p.side ∧ q.ply = p.ply ∧ q.hands = p.hands ∧ q.last_move = p.last_move := by
    rw [← hq]; exact ⟨rfl, rfl, rfl, rfl⟩
  clear hq
  -- removal
  obtain ⟨q1, hq1, e1⟩ : ∃ q1 : PartialPosition, (∀ pl : Vector Bitboard 2,
      PartialPosition.piece_set_remove { q with player_bb := pl } b (p.cell s.idx0) =
        .ok { q1 with player_bb := pl }) ∧
      (q1.board = q.board ∧ q1.player_bb = q.player_bb ∧ q1.king_square = q.king_square ∧
        q1.side = q.side ∧ q1.ply = q.ply ∧ q1.hands = q.hands ∧ q1.last_move = q.last_move) ∧
      ∀ k, (q1.kindBB k).Canonical ∧ ∀ i < 81, (q1.kindBB k).bit i = true ↔
        i ≠ s.idx0 ∧ ∃ c, p.cell i = some (Piece.mk' k c) := by
    rcases h.cases s.idx0 with e | ⟨k, c, e⟩
    · rw [e]
      refine ⟨q, fun _ => rfl, ⟨rfl, rfl, rfl, rfl, rfl, rfl, rfl⟩, fun k => ?_⟩
      rw [hki]
      refine ⟨h.kind k, fun i hi => ?_⟩
      rw [h.kind_bit k i hi]
      constructor
      · intro hx
        refine ⟨?_, hx⟩
        rintro rfl
        obtain ⟨c, hc⟩ := hx
        rw [e] at hc; cases hc
      · exact And.right
    · rw [e]
      refine ⟨{ q with piece_bb := q.piece_bb.set k.idx0 (b.andnot (q.kindBB k)) k.idx0_lt },
        fun _ => piece_set_remove_mk _ _ _ _, ⟨rfl, rfl, rfl, rfl, rfl, rfl, rfl⟩,
        fun l => ?_⟩
      have : ∀ pl, PartialPosition.kindBB { q with player_bb := pl } k = p.kindBB k := hki k ▸ fun _ => rfl
      have hl : PartialPosition.kindBB { q with
          piece_bb := q.piece_bb.set k.idx0 (b.andnot (q.kindBB k)) k.idx0_lt } l =
          if k = l then b.andnot (p.kindBB k) else p.kindBB l := by
        unfold kindBB
        simp only [Vector.getElem_set]
        by_cases hkl : k = l
        · subst hkl; simp only [if_true]; exact congrArg _ (hki k)
        · rw [if_neg hkl, if_neg (fun h => hkl (PieceKind.idx0_inj h))]; exact hki l
      have hl' := hl
      refine ⟨?_, fun i hi => ?_⟩
      · refine Eq.mpr (congrArg Bitboard.Canonical hl) ?_
        split
        · exact Bitboard.andnot_canonical (h.kind k)
        · exact h.kind l
      · refine (Eq.to_iff (congrArg (fun B => Bitboard.bit B i = true) hl)).trans ?_
        by_cases hkl : k = l
        · subst hkl
          rw [if_pos rfl, Bitboard.bit_andnot _ _ hi, hbit i hi]
          simp only [Bool.and_eq_true, Bool.not_eq_true', decide_eq_false_iff_not,
            h.kind_bit k i hi, ne_eq, eq_comm (a := s.idx0)]
        · rw [if_neg hkl, h.kind_bit l i hi]
          constructor
          · intro hx
            refine ⟨?_, hx⟩
            rintro rfl
            obtain ⟨d, hd⟩ := hx
            rw [e] at hd; exact hkl (Piece.mk'_inj (Option.some.inj hd)).1
          · exact And.right
  obtain ⟨⟨eb, epl, eks, es, epy, eh, el⟩, hk1⟩ := e1
  have hcell1 : ∀ pl pb kk, ∀ i < 81, PartialPosition.cell { q1 with player_bb := pl, piece_bb := pb, king_square := kk } i =
      if i = s.idx0 then o else p.cell i := by
    intro pl pb kk i hi
    rw [← hcell i hi]; unfold cell; rw [eb]
  have hcells : ∀ i x, (if i = s.idx0 then o else p.cell i) = some x → x.Valid := by
    intro i x hx
    split at hx
    · exact ho x hx
    · exact h.cells i x hx
  have cells_of : ∀ r : PartialPosition, (∀ i < 81, r.cell i = if i = s.idx0 then o else p.cell i) →
      ∀ i x, r.cell i = some x → x.Valid := by
    intro r hr i x hx
    by_cases hi : i < 81
    · rw [hr i hi] at hx; exact hcells i x hx
    · simp [cell, hi] at hx
  have handv : ∀ r : PartialPosition, r.hands = p.hands → ∀ c, (r.handOf c).Valid := by
    intro r hr c; unfold handOf; simp only [hr]; exact h.hand c
  have lastv : ∀ r : PartialPosition, r.last_move = p.last_move →
      ∀ m, r.last_move.toOption = some m → m.Valid := by
    intro r hr m hm; rw [hr] at hm; exact h.last m hm
  obtain ⟨rs, rp, rh, rl⟩ := hrest
  cases o with
  | none =>
    refine ⟨q1, ?_, ?_⟩
    · have := hq1 q.player_bb
      simp only [piece_set_player, Res.bind_ok]
      refine (congrArg (fun x => x >>= _) this).trans ?_
      simp only [Res.bind_ok, piece_set_insert]
      rw [← epl]
    · have hc2 := hcell1 q1.player_bb q1.piece_bb q1.king_square
      have hking : ∀ c, q1.kingOf c = p.kingOf c := by
        intro c; unfold kingOf; simp only [eks, hks]
      have hplay : ∀ c, q1.playerBB c = b.andnot (p.playerBB c) := by
        intro c; rw [← hpl c]; unfold playerBB; simp only [epl]
      refine ⟨⟨cells_of q1 hc2, ?_, ?_, fun k => (hk1 k).1, ?_, handv _ (eh.trans rh),
        lastv _ (el.trans rl), ?_⟩, hc2, es.trans rs, epy.trans rp, eh.trans rh, el.trans rl, ?_⟩
      · intro c; rw [hplay]; exact Bitboard.andnot_canonical (h.player c)
      · intro c i hi
        rw [hplay, Bitboard.bit_andnot _ _ hi, hbit i hi, hc2 i hi]
        simp only [Bool.and_eq_true, Bool.not_eq_true', decide_eq_false_iff_not,
            h.player_bit c i hi]
        by_cases e : i = s.idx0
        · subst e; simp
        · simp [e, eq_comm (a := s.idx0)]
      · intro k i hi
        rw [(hk1 k).2 i hi, hc2 i hi]
        by_cases e : i = s.idx0
        · subst e; simp
        · simp [e]
      · intro c; rw [hking]; exact h.king c
      · intro c; rw [hking]; simp
  | some x =>
    obtain ⟨k, c, rfl⟩ := Piece.exists_mk' (ho x rfl)
    refine ⟨{ q1 with
      player_bb := q.player_bb.set c.idx0 ((q.playerBB c).bitor b) c.idx0_lt
      piece_bb := q1.piece_bb.set k.idx0 ((q1.kindBB k).bitor b) k.idx0_lt
      king_square := if k = .King then
        q1.king_square.set c.idx0 (.ofOption (some s)) c.idx0_lt else q1.king_square }, ?_, ?_⟩
    · rw [piece_set_player_mk]
      simp only [Res.bind_ok]
      refine (congrArg (fun x => x >>= _) (hq1 _)).trans ?_
      simp only [Res.bind_ok]
      rw [piece_set_insert_mk]; rfl
    generalize hr : (PartialPosition.mk _ _ _ _ _ _ _ _) = r
    have hrc : ∀ i < 81, r.cell i = if i = s.idx0 then some (Piece.mk' k c) else p.cell i := by
      rw [← hr]; exact hcell1 _ _ _
    have hrplay : ∀ d, r.playerBB d = if c = d then (b.andnot (p.playerBB d)).bitor b
        else b.andnot (p.playerBB d) := by
      intro d; rw [← hr, ← hpl]
      unfold playerBB
      simp only [Vector.getElem_set]
      by_cases hcd : c = d
      · subst hcd; simp
      · rw [if_neg hcd, if_neg (fun h => hcd (Color.idx0_inj h))]
    have hrkind : ∀ l, r.kindBB l = if k = l then (q1.kindBB l).bitor b else q1.kindBB l := by
      intro l; rw [← hr]
      unfold kindBB
      simp only [Vector.getElem_set]
      by_cases hcd : k = l
      · subst hcd; simp
      · rw [if_neg hcd, if_neg (fun h => hcd (PieceKind.idx0_inj h))]
    have hrking : ∀ d, r.kingOf d = if some (Piece.mk' k c) = some (Piece.mk' .King d) then
        .ofOption (some s) else p.kingOf d := by
      intro d; rw [← hr]
      have hp : p.kingOf d = q1.kingOf d := by unfold kingOf; simp only [eks, hks]
      rw [hp]
      unfold kingOf
      simp only [Option.some.injEq]
      by_cases hk : k = .King
      · subst hk
        simp only [if_true, Vector.getElem_set]
        by_cases hcd : c = d
        · subst hcd; simp
        · rw [if_neg (fun h => hcd (Color.idx0_inj h)),
            if_neg (fun h => hcd (Piece.mk'_inj h).2)]
      · rw [if_neg (fun h => hk (Piece.mk'_inj h).1)]
        simp only [hk, if_false]
    have hrs : r.side = p.side ∧ r.ply = p.ply ∧ r.hands = p.hands ∧ r.last_move = p.last_move := by
      rw [← hr]; exact ⟨es.trans rs, epy.trans rp, eh.trans rh, el.trans rl⟩
    clear hr
    refine ⟨⟨cells_of r hrc, ?_, ?_, ?_, ?_, handv _ hrs.2.2.1,
        lastv _ hrs.2.2.2, ?_⟩, hrc, hrs.1, hrs.2.1, hrs.2.2.1, hrs.2.2.2, hrking⟩
    · intro d; rw [hrplay]
      split
      · exact Bitboard.bitor_canonical (Bitboard.andnot_canonical (h.player d)) hone
      · exact Bitboard.andnot_canonical (h.player d)
    · intro d i hi
      have h0 : (b.andnot (p.playerBB d)).bit i = true ↔
          i ≠ s.idx0 ∧ ∃ k, p.cell i = some (Piece.mk' k d) := by
        rw [Bitboard.bit_andnot _ _ hi, hbit i hi]
        simp only [Bool.and_eq_true, Bool.not_eq_true', decide_eq_false_iff_not,
            h.player_bit d i hi, ne_eq, eq_comm (a := s.idx0)]
      rw [hrplay, hrc i hi]
      by_cases hcd : c = d
      · subst hcd
        rw [if_pos rfl, Bitboard.bit_bitor, Bool.or_eq_true, h0, hbit i hi]
        by_cases e : i = s.idx0
        · subst e; simp; exact ⟨k, rfl⟩
        · simp [e, eq_comm (a := s.idx0)]
      · rw [if_neg hcd, h0]
        by_cases e : i = s.idx0
        · subst e; simp
          intro l e; exact hcd (Piece.mk'_inj e).2
        · simp [e]
    · intro l; rw [hrkind]
      split
      · exact Bitboard.bitor_canonical (hk1 l).1 hone
      · exact (hk1 l).1
    · intro l i hi
      rw [hrkind, hrc i hi]
      by_cases hcd : k = l
      · subst hcd
        rw [if_pos rfl, Bitboard.bit_bitor, Bool.or_eq_true, (hk1 k).2 i hi, hbit i hi]
        by_cases e : i = s.idx0
        · subst e; simp; exact ⟨c, rfl⟩
        · simp [e, eq_comm (a := s.idx0)]
      · rw [if_neg hcd, (hk1 l).2 i hi]
        by_cases e : i = s.idx0
        · subst e; simp
          intro l e; exact hcd (Piece.mk'_inj e).1
        · simp [e]
    · intro d t; rw [hrking]
      split
      · exact toOption_some_valid s hs t
      · exact h.king d t

end PartialPosition
end ShogiCore
