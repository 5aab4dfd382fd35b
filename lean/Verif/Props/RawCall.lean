import Verif.Props.RawArgs

/- C93: raw values passed from C: which calls are defined, and what they answer. -/

set_option linter.unusedSectionVars false

namespace ShogiCore
open PartialPosition

variable [P : Profile]

/-! ### Numbers and values -/

omit P in
theorem color_arg_num {v : U8} {c : Color} (h : Color.arg v = .ok c) : v.toNat = c.idx0 + 1 := by
  unfold Color.arg Color.transmute at h
  split at h
  · rename_i e; subst e; cases h; rfl
  · split at h
    · rename_i e; subst e; cases h; rfl
    · cases h

omit P in
theorem kind_arg_num {v : U8} {k : PieceKind} (h : PieceKind.arg v = .ok k) : v.toNat = k.idx0 + 1 := by
  have t : ∀ n < 256, ∀ k : PieceKind, PieceKind.arg (BitVec.ofNat 8 n) = .ok k → n = k.idx0 + 1 := by
    decide +kernel
  exact at_byte (p := fun n v => ∀ k : PieceKind, PieceKind.arg v = .ok k → n = k.idx0 + 1) t v k h

omit P in
theorem parts_num {v : U8} {k : PieceKind} {c : Color} (h : Piece.to_parts ⟨v⟩ = .ok (k, c)) :
    v.toNat % 16 = k.idx0 + 1 ∧ c = if 16 ≤ v.toNat then .White else .Black := by
  have t : ∀ n < 256, ∀ (k : PieceKind) (c : Color), Piece.to_parts ⟨BitVec.ofNat 8 n⟩ = .ok (k, c) →
      n % 16 = k.idx0 + 1 ∧ c = if 16 ≤ n then .White else .Black := by
    decide +kernel
  exact at_byte (p := fun n v => ∀ (k : PieceKind) (c : Color), Piece.to_parts ⟨v⟩ = .ok (k, c) →
      n % 16 = k.idx0 + 1 ∧ c = if 16 ≤ n then .White else .Black) t v k c h

/-! ### Bits -/

omit P in
theorem rawBit_eq (b : Bitboard) (i : Nat) :
    b.rawBit i = if i < 64 then b.w0.getLsbD i else b.w1.getLsbD (i - 64) := rfl

omit P in
theorem rawBit_square (b : Bitboard) {s : Nat} (h : SquareByte s) : b.rawBit (squareBit s) = b.bit (s - 1) := by
  unfold SquareByte at h
  rw [rawBit_eq]
  unfold squareBit Bitboard.bit
  by_cases h63 : s ≤ 63
  · simp only [if_pos h63]
    rw [if_pos (by omega), if_pos (by omega)]
  · simp only [if_neg h63]
    rw [if_neg (by omega), if_neg (by omega), show s - 1 - 63 = s - 64 by omega]

omit P in
theorem rawBit_and (a b : Bitboard) (i : Nat) : (a.bitand b).rawBit i = (a.rawBit i && b.rawBit i) := by
  simp only [rawBit_eq, Bitboard.bitand]; split <;> simp
omit P in
theorem rawBit_or (a b : Bitboard) (i : Nat) : (a.bitor b).rawBit i = (a.rawBit i || b.rawBit i) := by
  simp only [rawBit_eq, Bitboard.bitor]; split <;> simp
omit P in
theorem rawBit_xor (a b : Bitboard) (i : Nat) : (a.bitxor b).rawBit i = (a.rawBit i != b.rawBit i) := by
  simp only [rawBit_eq, Bitboard.bitxor]; split <;> simp

omit P in
theorem rawBit_canonical {b : Bitboard} (h : b.Canonical) {i : Nat} (hi : i < 128)
    (hs : ¬ (i < 63 ∨ 64 ≤ i ∧ i < 82)) : b.rawBit i = false := by
  rw [rawBit_eq]
  by_cases h64 : i < 64
  · rw [if_pos h64]; exact Bitboard.canonical_w0 h (by omega)
  · rw [if_neg h64]; exact Bitboard.canonical_w1 h (by omega)

omit P in
/-- A bit of one of the 81 squares. -/
theorem rawBit_used (b : Bitboard) {i : Nat} (hs : i < 63 ∨ 64 ≤ i ∧ i < 82) :
    b.rawBit i = b.bit (if i < 63 then i else i - 1) := by
  rw [rawBit_eq]
  unfold Bitboard.bit
  by_cases h63 : i < 63
  · simp only [if_pos h63]; rw [if_pos (by omega)]
  · simp only [if_neg h63]
    rw [if_neg (by omega), if_neg (by omega), show i - 1 - 63 = i - 64 by omega]

omit P in
theorem rawBit_not (b : Bitboard) {i : Nat} (hi : i < 128) :
    b.not.rawBit i = (!b.rawBit i && decide (i < 63 ∨ 64 ≤ i ∧ i < 82)) := by
  by_cases hs : i < 63 ∨ 64 ≤ i ∧ i < 82
  · rw [rawBit_used _ hs, rawBit_used _ hs, Bitboard.bit_not _ (by split <;> omega)]
    simp [hs]
  · rw [rawBit_canonical (Bitboard.not_canonical b) hi hs]; simp [hs]

omit P in
theorem bit_flip_raw (b : Bitboard) {i : Nat} (hi : i < 81) :
    b.flip.bit i = (b.bit (80 - i) || (decide (i = 17) && b.w0.getLsbD 63)) := by
  by_cases h : i < 63
  · simp only [Bitboard.bit, Bitboard.flip, h, if_true, reverse_bits, BitVec.getLsbD_reverse,
      BitVec.getMsbD_eq_getLsbD, BitVec.getLsbD_and, BitVec.getLsbD_or, BitVec.getLsbD_not,
      BitVec.getLsbD_ushiftRight, BitVec.getLsbD_shiftLeft]
    have e1 : (1 : U64).getLsbD (64 - 1 - i) = false := by
      have : 64 - 1 - i ≠ 0 := by omega
      simp only [BitVec.ofNat_eq_ofNat, BitVec.getLsbD_one]
      simp [this]
    simp only [show i < 64 by omega, e1, decide_true, Bool.true_and, Bool.not_false,
      show 64 - 1 - i < 64 by omega, Bool.and_true]
    by_cases h17 : i = 17
    · subst h17; simp [Bool.or_comm]
    · by_cases h' : 80 - i < 63
      · rw [if_pos h', show 17 + (64 - 1 - i) = 80 - i by omega]
        simp [h17, show 64 - 1 - i < 46 by omega]
      · rw [if_neg h', show 64 - 1 - i - 46 = 80 - i - 63 by omega]
        rw [BitVec.getLsbD_of_ge b.w0 (17 + (64 - 1 - i)) (by omega)]
        simp [h17, show ¬ 64 - 1 - i < 46 by omega]
  · simp only [Bitboard.bit, Bitboard.flip, h, if_false, reverse_bits, BitVec.getLsbD_reverse,
      BitVec.getMsbD_eq_getLsbD, BitVec.getLsbD_shiftLeft]
    rw [if_pos (show 80 - i < 63 by omega), show 64 - 1 - (i - 63) - 46 = 80 - i by omega]
    simp [show i - 63 < 64 by omega, show 64 - 1 - (i - 63) < 64 by omega,
      show ¬ 64 - 1 - (i - 63) < 46 by omega, show ¬ i = 17 by omega]

omit P in
theorem rawBit_flip (b : Bitboard) {s : Nat} (h : SquareByte s) :
    b.flip.rawBit (squareBit s) = (b.rawBit (squareBit (82 - s)) || (decide (s = 18) && b.rawBit 63)) := by
  have h' := h
  unfold SquareByte at h'
  rw [rawBit_square _ h, rawBit_square _ (by unfold SquareByte; omega), bit_flip_raw b (by omega),
    show 80 - (s - 1) = 82 - s - 1 by omega]
  have : decide (s - 1 = 17) = decide (s = 18) := by
    apply decide_eq_decide.2; omega
  rw [this]; rfl

omit P in
theorem count_num (b : Bitboard) : (count_ones b.w0).toNat + (count_ones b.w1).toNat =
    ((List.range 128).filter b.rawBit).length ∧ ((List.range 128).filter b.rawBit).length ≤ 128 := by
  have hl : ((List.range 128).filter b.rawBit).length ≤ 128 := by
    have := List.length_filter_le b.rawBit (List.range 128)
    simpa using this
  refine ⟨?_, hl⟩
  have e : ((List.range 128).filter b.rawBit).length =
      (List.range 64).countP (fun i => b.w0.getLsbD i) + (List.range 64).countP (fun i => b.w1.getLsbD i) := by
    have h1 : (List.range 64).countP b.rawBit = (List.range 64).countP (fun i => b.w0.getLsbD i) := by
      apply List.countP_congr
      intro i hi
      rw [rawBit_eq, if_pos (List.mem_range.1 hi)]
    have h2 : (List.range 64).countP (fun j => b.rawBit (64 + j)) =
        (List.range 64).countP (fun i => b.w1.getLsbD i) := by
      apply List.countP_congr
      intro i hi
      rw [rawBit_eq, if_neg (by omega), Nat.add_sub_cancel_left]
    rw [← List.countP_eq_length_filter, ← h1, ← h2]
    exact Bitboard.countP_range_add b.rawBit 64 64
  rw [e] at hl ⊢
  simp only [count_ones, BitVec.toNat_ofNat]
  omega

theorem count_raw (b : Bitboard) :
    ∃ r, b.count = .ok r ∧ r.toNat = ((List.range 128).filter b.rawBit).length := by
  obtain ⟨h1, h2⟩ := count_num b
  refine ⟨_, by rw [Bitboard.count, cadd_ok (by rw [h1]; omega), Res.bind_ok, Res.pure_eq], ?_⟩
  simp only [cast, BitVec.toNat_setWidth, BitVec.toNat_add, h1]; omega

omit P in
theorem is_empty_raw (b : Bitboard) : b.is_empty = (List.range 128).all fun i => !b.rawBit i := by
  rw [Bool.eq_iff_iff]
  constructor
  · intro h
    rw [List.all_eq_true]
    intro i _
    simp only [Bitboard.is_empty, Bool.and_eq_true, beq_iff_eq] at h
    rw [rawBit_eq, h.1, h.2]
    split <;> simp
  · intro h
    rw [List.all_eq_true] at h
    have h0 : b.to_u128 = 0#128 := no_bits fun i hi => by
      have := h i (List.mem_range.2 hi)
      simpa using this
    obtain ⟨h1, h2⟩ := (Bitboard.u128_eq_zero_iff b).1 h0
    simp [Bitboard.is_empty, h1, h2]

omit P in
theorem rawBit_one {s : Nat} (h : SquareByte s) {i : Nat} (hi : i < 128) :
    (Bitboard.one (s - 1)).rawBit i = decide (i = squareBit s) := by
  unfold SquareByte at h
  by_cases hs : i < 63 ∨ 64 ≤ i ∧ i < 82
  · rw [rawBit_used _ hs, Bitboard.bit_one (by omega) _ (by split <;> omega)]
    apply decide_eq_decide.2
    unfold squareBit
    split <;> split <;> omega
  · rw [rawBit_canonical (Bitboard.one_canonical (by omega)) hi hs]
    symm
    apply decide_eq_false
    unfold squareBit
    split <;> omega

/-! ### The calls -/

/-- Answers of `c`. -/
abbrev CCall.Good (c : CCall) : Prop := c.exec.Ans c.Defined c.Answer

section
variable (b : Bitboard) (p : PartialPosition) (h : Hand) (s t k c x : U8) (m : U16)

theorem good_contains : (CCall.Bitboard_contains b s).Good := by
  rcases square_call2 (E := True) s (f := fun s => b.contains s >>= fun r => pure (boolOut r))
    (fun s hs => by rw [Bitboard.contains_ok b hs]; exact .total ⟨_, rfl⟩)
    (fun s hs => (contains_bad hs b).bind _) with ⟨⟨hs, _⟩, _⟩ | ⟨hs, hb⟩
  · refine .inl ⟨hs, ?_⟩
    rcases square_arg0 s with ⟨h0, _⟩ | ⟨_, e⟩
    · have := hs.1; omega
    · refine ⟨boolOut (b.bit (Square.idx0 ⟨s⟩)), ?_, ?_⟩
      · simp only [CCall.exec, e, Res.bind_ok, Bitboard.contains_ok b (s := ⟨s⟩) hs, Res.pure_eq]
      · show boolOut _ = [_]
        rw [rawBit_square b hs]; rfl
  · exact .inr ⟨fun h => hs ⟨h, trivial⟩, hb⟩

theorem good_single : (CCall.Bitboard_single s).Good := by
  rcases square_call s (f := fun s => Bitboard.single s >>= fun r => pure r.out)
    (fun s hs => by rw [Bitboard.single_ok hs]; exact ⟨_, rfl⟩)
    (fun s hs => (single_bad hs).bind _) with ⟨hs, _⟩ | ⟨hs, hb⟩
  · refine .inl ⟨hs, ?_⟩
    rcases square_arg0 s with ⟨h0, _⟩ | ⟨_, e⟩
    · have := hs.1; omega
    · refine ⟨(Bitboard.one (s.toNat - 1)).out, ?_, _, rfl, fun i hi => rawBit_one hs hi⟩
      simp only [CCall.exec, e, Res.bind_ok, Bitboard_single, Bitboard.single_ok (s := ⟨s⟩) hs, Res.pure_eq]
      rfl
  · exact .inr ⟨hs, hb⟩

theorem good_piece_at : (CCall.PartialPosition_piece_at p s).Good := by
  rcases square_call s (f := fun s => p.PartialPosition_piece_at s >>= fun r => pure [r.val.toNat])
    (fun s hs => by rw [PartialPosition_piece_at_ok p hs]; exact ⟨_, rfl⟩)
    (fun s hs => (piece_at_bad hs p).bind _) with ⟨hs, _⟩ | ⟨hs, hb⟩
  · refine .inl ⟨hs, ?_⟩
    rcases square_arg0 s with ⟨h0, _⟩ | ⟨_, e⟩
    · have := hs.1; omega
    · refine ⟨_, ?_, Square.idx0_lt (s := ⟨s⟩) hs, rfl⟩
      simp only [CCall.exec, e, Res.bind_ok, PartialPosition_piece_at_ok p (s := ⟨s⟩) hs, Res.pure_eq,
        ← board_eq (p := p) (Square.idx0_lt (s := ⟨s⟩) hs)]
      rfl
  · exact .inr ⟨hs, hb⟩

theorem good_hand_of : (CCall.PartialPosition_hand_of_a_player p c).Good := by
  refine Res.Ans.bad (color_arg c) fun d e => ?_
  have hn := color_arg_num e
  have := d.idx0_lt
  refine ⟨_, by rw [hand_of_a_player_ok]; rfl, by omega, ?_⟩
  simp only [hn, Nat.add_sub_cancel]; rfl

theorem good_player : (CCall.PartialPosition_player_bitboard p c).Good := by
  refine Res.Ans.bad (color_arg c) fun d e => ?_
  have hn := color_arg_num e
  have := d.idx0_lt
  refine ⟨_, by rw [player_bitboard_ok]; rfl, by omega, ?_⟩
  simp only [hn, Nat.add_sub_cancel]; rfl

theorem good_kind : (CCall.PartialPosition_piece_kind_bitboard p k).Good := by
  refine Res.Ans.bad (kind_arg k) fun d e => ?_
  have hn := kind_arg_num e
  have := d.idx0_lt
  refine ⟨_, by rw [piece_kind_bitboard_ok]; rfl, by omega, ?_⟩
  simp only [hn, Nat.add_sub_cancel]; rfl

theorem good_piece : (CCall.PartialPosition_piece_bitboard p x).Good := by
  rcases piece_arg0 x with ⟨h0, e⟩ | ⟨h0, e⟩
  · refine .inr ⟨fun h => ?_, .inl ?_⟩
    · have h : LoosePieceByte x.toNat := h
      unfold LoosePieceByte KindByte at h; omega
    · simp only [CCall.exec, e]; rfl
  · rcases parts_out ⟨x⟩ with ⟨hx, ⟨k, c⟩, e2⟩ | ⟨hx, hb⟩
    · obtain ⟨h1, h2⟩ := parts_num e2
      have := k.idx0_lt
      refine .inl ⟨hx, ((p.kindBB k).bitand (p.playerBB c)).out, ?_, by omega, _, rfl, ?_⟩
      · simp only [CCall.exec, e, Res.bind_ok, piece_bitboard, e2, PieceKind.array_index_ok,
          Color.array_index_ok, toNat_kind, toNat_color, idx_ok k.idx0_lt, idx_ok c.idx0_lt, kindBB, playerBB,
          Res.pure_eq]
      · intro i _
        rw [rawBit_and]
        simp only [h1, Nat.add_sub_cancel]
        subst h2
        unfold kindBB playerBB
        congr 2
        split <;> rfl
    · refine .inr ⟨hx, ?_⟩
      simp only [CCall.exec, e, Res.bind_ok, piece_bitboard]
      exact (hb.bind _).bind _

theorem good_new : (CCall.Piece_new k c).Good := by
  rcases color_arg c with ⟨hc, d, e⟩ | ⟨hc, hb⟩
  · have : c = 1 ∨ c = 2 := hc.imp (fun h => BitVec.eq_of_toNat_eq h) (fun h => BitVec.eq_of_toNat_eq h)
    rcases this with rfl | rfl
    · rcases call_new1 k with ⟨h, r, e, rfl⟩ | ⟨h, hb⟩
      · exact .inl ⟨⟨h, hc⟩, _, e, rfl⟩
      · exact .inr ⟨fun x => h x.1, hb⟩
    · rcases call_new2 k with ⟨h, r, e, rfl⟩ | ⟨h, hb⟩
      · exact .inl ⟨⟨h, hc⟩, _, e, rfl⟩
      · exact .inr ⟨fun x => h x.1, hb⟩
  · refine .inr ⟨fun x => hc x.2, ?_⟩
    rcases kind_arg k with ⟨_, k', e⟩ | ⟨_, hb'⟩
    · simp only [CCall.exec, e, Res.bind_ok]; exact hb.bind _
    · exact hb'.bind _

theorem good_rel_file : (CCall.Square_relative_file s c).Good := by
  rcases color_arg c with ⟨hc, d, e⟩ | ⟨hc, hb⟩
  · have : c = 1 ∨ c = 2 := hc.imp (fun h => BitVec.eq_of_toNat_eq h) (fun h => BitVec.eq_of_toNat_eq h)
    rcases this with rfl | rfl
    · rcases call_relF1 s with ⟨h, r, e, rfl⟩ | ⟨h, hb⟩
      · exact .inl ⟨⟨h, hc⟩, _, e, rfl⟩
      · exact .inr ⟨fun x => h x.1, hb⟩
    · rcases call_relF2 s with ⟨h, r, e, rfl⟩ | ⟨h, hb⟩
      · exact .inl ⟨⟨h, hc⟩, _, e, rfl⟩
      · exact .inr ⟨fun x => h x.1, hb⟩
  · refine .inr ⟨fun x => hc x.2, ?_⟩
    rcases square_arg0 s with ⟨_, e⟩ | ⟨_, e⟩
    · simp only [CCall.exec, e]; exact .inl rfl
    · simp only [CCall.exec, e, Res.bind_ok]; exact hb.bind _

theorem good_rel_rank : (CCall.Square_relative_rank s c).Good := by
  rcases color_arg c with ⟨hc, d, e⟩ | ⟨hc, hb⟩
  · have : c = 1 ∨ c = 2 := hc.imp (fun h => BitVec.eq_of_toNat_eq h) (fun h => BitVec.eq_of_toNat_eq h)
    rcases this with rfl | rfl
    · rcases call_relR1 s with ⟨h, r, e, rfl⟩ | ⟨h, hb⟩
      · exact .inl ⟨⟨h, hc⟩, _, e, rfl⟩
      · exact .inr ⟨fun x => h x.1, hb⟩
    · rcases call_relR2 s with ⟨h, r, e, rfl⟩ | ⟨h, hb⟩
      · exact .inl ⟨⟨h, hc⟩, _, e, rfl⟩
      · exact .inr ⟨fun x => h x.1, hb⟩
  · refine .inr ⟨fun x => hc x.2, ?_⟩
    rcases square_arg0 s with ⟨_, e⟩ | ⟨_, e⟩
    · simp only [CCall.exec, e]; exact .inl rfl
    · simp only [CCall.exec, e, Res.bind_ok]; exact hb.bind _

theorem new_code (f r : U8) :
    ∃ o, Square.new f r = .ok o ∧ (OptionSquare.ofOption o).val.toNat = squareCode f.toNat r.toNat := by
  unfold squareCode
  by_cases h : 1 ≤ f.toNat ∧ f.toNat ≤ 9 ∧ 1 ≤ r.toNat ∧ r.toNat ≤ 9
  · refine ⟨_, Square.new_ok _ _ h, ?_⟩
    rw [if_pos h]
    simp only [OptionSquare.ofOption, Square.ofIdx, BitVec.toNat_ofNat]; omega
  · refine ⟨_, (C01_new f r).2 h, ?_⟩
    rw [if_neg h]; rfl

theorem good_sq_new (f r : U8) : (CCall.Square_new f r).Good := by
  obtain ⟨o, e, h⟩ := new_code f r
  refine .inl ⟨trivial, [(OptionSquare.ofOption o).val.toNat], ?_, by rw [h]; rfl⟩
  simp only [CCall.exec, Square_new, e, Res.bind_ok, Res.pure_eq]

theorem good_normal (pr : Bool) : (CCall.CompactMove_normal s t pr).Good := by
  rcases square_arg0 s with ⟨h0, e⟩ | ⟨h0, e⟩
  · refine .inr ⟨fun h => ?_, .inl ?_⟩
    · have := h.1.1; omega
    · simp only [CCall.exec, e]; rfl
  rcases square_arg0 t with ⟨h0', e'⟩ | ⟨h0', e'⟩
  · refine .inr ⟨fun h => ?_, .inl ?_⟩
    · have := h.2.1; omega
    · simp only [CCall.exec, e, e', Res.bind_ok]; rfl
  by_cases hs : SquareByte s.toNat
  · by_cases ht : SquareByte t.toNat
    · obtain ⟨m, e2, h2⟩ := CompactMove.normal_ok (s := ⟨s⟩) (t := ⟨t⟩) hs ht pr
      refine .inl ⟨⟨hs, ht⟩, [m.val.toNat], ?_, ?_⟩
      · simp only [CCall.exec, e, e', Res.bind_ok, e2, Res.pure_eq]
      · show [m.val.toNat] = _
        rw [h2]
    · refine .inr ⟨fun h => ht h.2, ?_⟩
      simp only [CCall.exec, e, e', Res.bind_ok, CompactMove.normal, Square.index_ok (s := ⟨s⟩) hs]
      exact ((index_bad (s := ⟨t⟩) ht).bind _).bind _
  · refine .inr ⟨fun h => hs h.1, ?_⟩
    simp only [CCall.exec, e, e', Res.bind_ok, CompactMove.normal]
    exact ((index_bad (s := ⟨s⟩) hs).bind _).bind _

omit P in
private theorem nat_or {a b i : Nat} (hb : b < 2 ^ i) : a * 2 ^ i ||| b = a * 2 ^ i + b := by
  rw [← Nat.shiftLeft_eq, Nat.shiftLeft_add_eq_or_of_lt hb]

/-- The code of a drop, whatever the byte of the piece. -/
theorem drop_any {p : Piece} {t : Square} (ht : t.Valid) :
    ∃ m, CompactMove.drop p t = .ok m ∧ CompactMove.ofMove (.Drop p t) = .ok m ∧
      m.val.toNat = p.val.toNat * 256 + 128 + t.val.toNat := by
  have hv : ((cast 16 p.as_u8) <<< 8 ||| 128 ||| cast 16 t.val : U16).toNat =
      p.val.toNat * 256 + 128 + t.val.toNat := by
    unfold Square.Valid at ht
    have e1 : (cast 16 p.as_u8 : U16).toNat = p.val.toNat := by
      simp only [cast, BitVec.toNat_setWidth, Piece.as_u8]; omega
    have e2 : (cast 16 t.val : U16).toNat = t.val.toNat := by
      simp only [cast, BitVec.toNat_setWidth]; omega
    have e4 : ((cast 16 p.as_u8) <<< 8 : U16).toNat = p.val.toNat * 2 ^ 8 := by
      rw [BitVec.toNat_shiftLeft, e1, Nat.shiftLeft_eq]; omega
    have e5 : (128 : U16).toNat = 128 := rfl
    rw [BitVec.toNat_or, BitVec.toNat_or, e2, e4, e5, nat_or (by omega)]
    have : p.val.toNat * 2 ^ 8 + 128 = (p.val.toNat * 2 + 1) * 2 ^ 7 := by omega
    rw [this, nat_or (by omega)]
  have h0 : ((cast 16 p.as_u8) <<< 8 ||| 128 ||| cast 16 t.val : U16) ≠ 0#16 := by
    intro e; rw [e] at hv; have : (0#16).toNat = 0 := rfl; omega
  refine ⟨⟨_⟩, ?_, ?_, hv⟩
  · simp only [CompactMove.drop, Square.index_ok ht, Res.bind_ok, nonzero_ok h0, Res.pure_eq]
  · simp only [CompactMove.ofMove, Square.index_ok ht, Res.bind_ok, nonzero_ok h0, Res.pure_eq]

theorem good_drop : (CCall.CompactMove_drop x t).Good := by
  rcases piece_arg0 x with ⟨h0, e⟩ | ⟨h0, e⟩
  · refine .inr ⟨fun h => h.1 h0, .inl ?_⟩
    simp only [CCall.exec, e]; rfl
  rcases square_arg0 t with ⟨h0', e'⟩ | ⟨h0', e'⟩
  · refine .inr ⟨fun h => ?_, .inl ?_⟩
    · have := h.2.1; omega
    · simp only [CCall.exec, e, e', Res.bind_ok]; rfl
  by_cases ht : SquareByte t.toNat
  · obtain ⟨m, e2, _, h2⟩ := drop_any (p := ⟨x⟩) (t := ⟨t⟩) ht
    refine .inl ⟨⟨h0, ht⟩, [m.val.toNat], ?_, ?_⟩
    · simp only [CCall.exec, e, e', Res.bind_ok, e2, Res.pure_eq]
    · show [m.val.toNat] = _
      rw [h2]
  · refine .inr ⟨fun h => ht h.2, ?_⟩
    simp only [CCall.exec, e, e', Res.bind_ok, CompactMove.drop]
    exact ((index_bad (s := ⟨t⟩) ht).bind _).bind _

theorem good_is_drop : (CCall.CompactMove_is_drop m).Good := by
  rcases move_arg0 m with ⟨h0, e⟩ | ⟨h0, e⟩
  · refine .inr ⟨fun h => h h0, .inl ?_⟩
    simp only [CCall.exec, e]; rfl
  · refine .inl ⟨h0, boolOut (decide (m.toNat / 128 % 2 = 1)), ?_, ?_⟩
    · simp only [CCall.exec, e, Res.bind_ok, CompactMove.is_drop_eq, Res.pure_eq]
    · show boolOut _ = [_]
      unfold boolOut
      by_cases h : m.toNat / 128 % 2 = 1
      · simp [h]
      · have : m.toNat / 128 % 2 = 0 := by omega
        simp [this]

theorem good_is_promoting : (CCall.CompactMove_is_promoting m).Good := by
  have hm := m.isLt
  rcases move_arg0 m with ⟨h0, e⟩ | ⟨h0, e⟩
  · refine .inr ⟨fun h => h h0, .inl ?_⟩
    simp only [CCall.exec, e]; rfl
  · refine .inl ⟨h0, boolOut (decide (m.toNat / 32768 % 2 = 1)), ?_, ?_⟩
    · simp only [CCall.exec, e, Res.bind_ok, CompactMove.is_promoting_eq, Res.pure_eq]
    · show boolOut _ = [_]
      unfold boolOut
      by_cases h : m.toNat / 32768 % 2 = 1
      · have : m.toNat / 32768 = 1 := by omega
        simp [this]
      · have : m.toNat / 32768 = 0 := by omega
        simp [this]

theorem good_to : (CCall.CompactMove_to m).Good := by
  rcases move_arg0 m with ⟨h0, e⟩ | ⟨h0, e⟩
  · refine .inr ⟨fun h => ?_, .inl ?_⟩
    · have := h.1; omega
    · simp only [CCall.exec, e]; rfl
  · by_cases h : SquareByte (m.toNat % 128)
    · have hv : SquareByte (cast 8 (m &&& 127) : U8).toNat := by rw [low7]; exact h
      refine .inl ⟨h, [(cast 8 (m &&& 127) : U8).toNat], ?_, by rw [low7]; rfl⟩
      simp only [CCall.exec, e, Res.bind_ok, CompactMove.to, Square.from_u8_unchecked_ok (v := cast 8 (m &&& 127)) hv, Res.pure_eq]
    · refine .inr ⟨h, .inl ?_⟩
      simp only [CCall.exec, e, Res.bind_ok, CompactMove.to,
        unchecked_ub (v := cast 8 (m &&& 127)) (by rw [low7]; exact h)]
      rfl

theorem good_from : (CCall.CompactMove_from m).Good := by
  rcases move_arg0 m with ⟨h0, e⟩ | ⟨h0, e⟩
  · refine .inr ⟨fun h => h.1 h0, .inl ?_⟩
    simp only [CCall.exec, e]; rfl
  · by_cases hd : m.toNat / 128 % 2 = 1
    · refine .inl ⟨⟨h0, .inl hd⟩, [0], ?_, ?_⟩
      · simp [CCall.exec, e, CompactMove_from, CompactMove.src, CompactMove.is_drop_eq, hd,
          OptionSquare.ofOption]
      · show [0] = [_]
        rw [if_pos hd]
    · by_cases h : SquareByte (m.toNat / 256 % 128)
      · have hv : SquareByte (cast 8 ((m >>> 8) &&& 127) : U8).toNat := by rw [high7]; exact h
        refine .inl ⟨⟨h0, .inr h⟩, [(cast 8 ((m >>> 8) &&& 127) : U8).toNat], ?_, ?_⟩
        · simp only [CCall.exec, e, Res.bind_ok, CompactMove_from, CompactMove.src, CompactMove.is_drop_eq, hd,
            decide_false, Bool.false_eq_true, if_false, Square.from_u8_unchecked_ok (v := cast 8 ((m >>> 8) &&& 127)) hv, Res.pure_eq,
            OptionSquare.ofOption]
        · show [_] = [_]
          rw [if_neg hd, high7]
      · refine .inr ⟨fun x => x.2.elim hd h, .inl ?_⟩
        simp only [CCall.exec, e, Res.bind_ok, CompactMove_from, CompactMove.src, CompactMove.is_drop_eq, hd,
          decide_false, Bool.false_eq_true, if_false,
          unchecked_ub (v := cast 8 ((m >>> 8) &&& 127)) (by rw [high7]; exact h)]
        rfl

theorem good_pop : (CCall.Bitboard_pop b).Good := by
  obtain ⟨h1, h2⟩ := C93_pop b
  rcases first_or b with h | ⟨i, hi⟩
  · refine .inl ⟨fun i hi => ?_, b.out ++ [0], ?_, b, 0, rfl, fun _ => ⟨rfl, rfl⟩, fun i hi => ?_⟩
    · have := h i hi.1; rw [hi.2.1] at this; cases this
    · simp only [CCall.exec, h1 h, Res.bind_ok]; rfl
    · have := h i hi.1; rw [hi.2.1] at this; cases this
  · obtain ⟨h3, h4, h5⟩ := h2 i hi
    by_cases hc : i < 63 ∨ (i = 63 ∧ Profile.debug = false) ∨ (64 ≤ i ∧ i < 82)
    · obtain ⟨b', s, e, hs, hb⟩ := h5 hc
      refine .inl ⟨fun j hj => by rw [hj.unique hi]; exact hc, b'.out ++ [s.val.toNat], ?_, b', _, rfl,
        fun h => ?_, fun j hj => ?_⟩
      · simp only [CCall.exec, e, Res.bind_ok, Res.pure_eq]
      · have := h i hi.1; rw [hi.2.1] at this; cases this
      · cases hj.unique hi; exact ⟨hs, hb⟩
    · refine .inr ⟨fun h => hc (h i hi), ?_⟩
      by_cases h63 : i = 63
      · have hd : Profile.debug = true := by
          cases hd : Profile.debug with
          | true => rfl
          | false => exact absurd (.inr (.inl ⟨h63, hd⟩)) hc
        refine .inr ⟨?_, hd⟩
        simp only [CCall.exec, h4 h63 hd]; rfl
      · refine .inl ?_
        simp only [CCall.exec, h3 (by omega)]; rfl

theorem good_new_relative (f r : U8) : (CCall.Square_new_relative f r c).Good := by
  refine Res.Ans.bad (D := ColorByte c.toNat) (color_arg c) fun d e => ?_
  have hn := color_arg_num e
  have hd := d.idx0_lt
  by_cases h : 1 ≤ f.toNat ∧ f.toNat ≤ 9 ∧ 1 ≤ r.toNat ∧ r.toNat ≤ 9
  · have c0 : squareCode f.toNat r.toNat = 9 * f.toNat + r.toNat - 9 := if_pos h
    refine ⟨_, by simp only [Square_new_relative, Square.new_relative_ok f r h d, Res.bind_ok, Res.pure_eq]; rfl, ?_⟩
    show [_] = [_]
    congr 1
    cases d with
    | Black =>
      have hn : c.toNat = 1 := hn
      rw [if_neg (fun x => by omega), c0]
      simp only [OptionSquare.ofOption, Square.ofIdx, BitVec.toNat_ofNat]; omega
    | White =>
      have hn : c.toNat = 2 := hn
      rw [if_pos ⟨hn, by omega⟩, c0]
      simp only [OptionSquare.ofOption, Square.ofIdx, BitVec.toNat_ofNat]; omega
  · refine ⟨[0], ?_, ?_⟩
    · simp only [Square_new_relative, (C04_new_relative f r d).2 h, Res.bind_ok, Res.pure_eq]; rfl
    · show [0] = [_]
      rw [show squareCode f.toNat r.toNat = 0 from if_neg h, if_neg (by simp)]

omit P in
theorem hand_at (h : Hand) {k : PieceKind} (hk : k.InHand) : h.out[k.idx0]! = (h.cell k hk).toNat := by
  have := (Hand.inHand_iff k).1 hk
  unfold Hand.out Hand.cell
  rw [getElem!_pos _ _ (by simp; omega)]
  simp

omit P in
theorem hand_set (h : Hand) {k : PieceKind} (hk : k.InHand) (v : U8) :
    (h.setCell k hk v).out = h.out.set k.idx0 v.toNat := by
  unfold Hand.out Hand.setCell
  rw [Vector.toList_set, List.map_set]

theorem good_hand_count : (CCall.Hand_count h k).Good := by
  refine Res.Ans.bad (kind_arg k) fun d e => ?_
  have hn := kind_arg_num e
  simp only [CCall.Answer, hn, Nat.add_sub_cancel]
  by_cases hk : d.InHand
  · have := (Hand.inHand_iff d).1 hk
    refine ⟨[(h.cell d hk).toNat], ?_, by rw [if_pos (by omega), hand_at h hk]⟩
    simp only [Hand.Hand_count, Hand.count_ok, dif_pos hk, Res.bind_ok, Res.pure_eq]
  · have : ¬ d.idx0 < 7 := fun h => hk ((Hand.inHand_iff d).2 h)
    refine ⟨[0], ?_, by rw [if_neg (by omega)]⟩
    simp only [Hand.Hand_count, Hand.count_ok, dif_neg hk, Res.bind_ok, Res.pure_eq]; rfl

theorem good_hand_add : (CCall.Hand_add h k).Good := by
  refine Res.Ans.bad (kind_arg k) fun d e => ?_
  have hn := kind_arg_num e
  simp only [CCall.Answer, hn, Nat.add_sub_cancel]
  by_cases hk : d.InHand
  · have := (Hand.inHand_iff d).1 hk
    refine ⟨(h.setCell d hk (h.cell d hk + 1)).out ++ boolOut true, ?_, ?_⟩
    · simp only [Hand.Hand_add, Hand.added_ok, dif_pos hk, Res.bind_ok, Res.pure_eq]
    · rw [if_pos (by omega), hand_at h hk, hand_set]
      simp [boolOut, BitVec.toNat_add]
  · have : ¬ d.idx0 < 7 := fun h => hk ((Hand.inHand_iff d).2 h)
    refine ⟨h.out ++ boolOut false, ?_, by rw [if_neg (by omega)]; rfl⟩
    simp only [Hand.Hand_add, Hand.added_ok, dif_neg hk, Res.bind_ok, Res.pure_eq]

theorem good_hand_remove : (CCall.Hand_remove h k).Good := by
  refine Res.Ans.bad (kind_arg k) fun d e => ?_
  have hn := kind_arg_num e
  simp only [CCall.Answer, hn, Nat.add_sub_cancel]
  by_cases hk : d.InHand
  · have h7 := (Hand.inHand_iff d).1 hk
    rw [hand_at h hk]
    by_cases h0 : (h.cell d hk).toNat = 0
    · refine ⟨h.out ++ boolOut false, ?_, by rw [if_neg (fun x => x.2 h0)]; rfl⟩
      simp only [Hand.Hand_remove, Hand.removed_ok, dif_pos hk, if_pos h0, Res.bind_ok, Res.pure_eq]
    · refine ⟨(h.setCell d hk (h.cell d hk - 1)).out ++ boolOut true, ?_, ?_⟩
      · simp only [Hand.Hand_remove, Hand.removed_ok, dif_pos hk, if_neg h0, Res.bind_ok, Res.pure_eq]
      · rw [if_pos ⟨by omega, h0⟩, hand_set]
        have : (h.cell d hk - 1).toNat = (h.cell d hk).toNat - 1 := by
          have := (h.cell d hk).isLt
          rw [BitVec.toNat_sub]; simp; omega
        rw [this]; rfl
  · have : ¬ d.idx0 < 7 := fun h => hk ((Hand.inHand_iff d).2 h)
    refine ⟨h.out ++ boolOut false, ?_, by rw [if_neg (by omega)]; rfl⟩
    simp only [Hand.Hand_remove, Hand.removed_ok, dif_neg hk, Res.bind_ok, Res.pure_eq]

theorem good_shift (df dr : I8) : (CCall.Square_shift s df dr).Good := by
  rcases square_call s (f := fun s => s.shift df dr >>= fun r => pure [(OptionSquare.ofOption r).val.toNat])
    (fun s hs => by rw [Square.shift_ok s hs]; exact ⟨_, rfl⟩)
    (fun s hs => (shift_bad hs df dr).bind _) with ⟨hs, _⟩ | ⟨hs, hb⟩
  · refine .inl ⟨hs, ?_⟩
    rcases square_arg0 s with ⟨h0, _⟩ | ⟨_, e⟩
    · have := hs.1; omega
    · refine ⟨_, by simp only [CCall.exec, e, Res.bind_ok, Square.shift_ok ⟨s⟩ hs, Res.pure_eq]; rfl, ?_⟩
      show [_] = [_]
      congr 1
      unfold shiftCode
      have i1 : (((s.toNat - 1) / 9 + 1 : Nat) : Int) = ((Square.idx0 ⟨s⟩ : Nat) : Int) / 9 + 1 := by
        simp only [Square.idx0]; omega
      have i2 : (((s.toNat - 1) % 9 + 1 : Nat) : Int) = ((Square.idx0 ⟨s⟩ : Nat) : Int) % 9 + 1 := by
        simp only [Square.idx0]; omega
      simp only [i1, i2]
      generalize ((Square.idx0 ⟨s⟩ : Nat) : Int) / 9 + 1 + df.toInt = a
      generalize ((Square.idx0 ⟨s⟩ : Nat) : Int) % 9 + 1 + dr.toInt = b
      by_cases hon : OnBoard a b
      · rw [if_pos hon, if_pos hon]
        unfold OnBoard at hon
        unfold squareCode
        rw [if_pos (by omega)]
        simp only [OptionSquare.ofOption, Square.ofIdx, BitVec.toNat_ofNat]; omega
      · rw [if_neg hon, if_neg hon]; rfl
  · exact .inr ⟨hs, hb⟩

end

omit P in
theorem resolution_num {v : U8} {r : GameResolution} (h : GameResolution.arg v = .ok r) : r.toU8 = v := by
  have t : ∀ n < 256, (GameResolution.arg (BitVec.ofNat 8 n) >>= fun r => Res.ok r.toU8) = .ok (BitVec.ofNat 8 n) ∨
      GameResolution.arg (BitVec.ofNat 8 n) = .ub := by decide +kernel
  rcases at_byte (p := fun _ v => (GameResolution.arg v >>= fun r => Res.ok r.toU8) = .ok v ∨
      GameResolution.arg v = .ub) t v with e | e
  · rw [h, Res.bind_ok] at e; exact Res.ok.inj e
  · rw [h] at e; cases e

/-- Every call: defined and answering, or not defined. -/
theorem good (c : CCall) : c.Good := by
  cases c with
  | Bitboard_bitand a b => exact .pure trivial ⟨_, rfl, fun i _ => rawBit_and a b i⟩
  | Bitboard_bitand_assign a b => exact .pure trivial ⟨_, rfl, fun i _ => rawBit_and a b i⟩
  | Bitboard_bitor a b => exact .pure trivial ⟨_, rfl, fun i _ => rawBit_or a b i⟩
  | Bitboard_bitor_assign a b => exact .pure trivial ⟨_, rfl, fun i _ => rawBit_or a b i⟩
  | Bitboard_bitxor a b => exact .pure trivial ⟨_, rfl, fun i _ => rawBit_xor a b i⟩
  | Bitboard_bitxor_assign a b => exact .pure trivial ⟨_, rfl, fun i _ => rawBit_xor a b i⟩
  | Bitboard_contains b s => exact good_contains b s
  | Bitboard_count b =>
    obtain ⟨r, e, h⟩ := count_raw b
    refine .inl ⟨trivial, [r.toNat], ?_, by rw [h]; rfl⟩
    simp only [CCall.exec, e, Res.bind_ok, Res.pure_eq]
  | Bitboard_flip b =>
    exact .pure trivial ⟨_, rfl, Bitboard.flip_canonical b, fun s hs => rawBit_flip b hs⟩
  | Bitboard_is_empty b =>
    refine .pure trivial ?_
    show boolOut _ = [_]
    rw [is_empty_raw]; rfl
  | Bitboard_not b => exact .pure trivial ⟨_, rfl, fun i hi => rawBit_not b hi⟩
  | Bitboard_pop b => exact good_pop b
  | Bitboard_single s => exact good_single s
  | Color_flip c => exact call_Color_flip c
  | CompactMove_drop p t => exact good_drop t p
  | CompactMove_from m => exact good_from m
  | CompactMove_is_drop m => exact good_is_drop m
  | CompactMove_is_promoting m => exact good_is_promoting m
  | CompactMove_normal s t p => exact good_normal s t p
  | CompactMove_to m => exact good_to m
  | GameResolution_from_u8_unchecked v => exact call_GR v
  | Game_resolve g r =>
    refine Res.Ans.bad (resolution_arg r) fun d e => ⟨[d.toU8.toNat], rfl, ?_⟩
    rw [resolution_num e]; rfl
  | Hand_add h k => exact good_hand_add h k
  | Hand_count h k => exact good_hand_count h k
  | Hand_is_hand_piece k => exact call_handPiece k
  | Hand_remove h k => exact good_hand_remove h k
  | IllegalMoveKind_from_u8_unchecked v => exact call_IM v
  | PartialGame_resolve g r =>
    refine Res.Ans.bad (resolution_arg r) fun d e => ⟨[d.toU8.toNat], rfl, ?_⟩
    rw [resolution_num e]; rfl
  | PartialPosition_hand_of_a_player p c => exact good_hand_of p c
  | PartialPosition_piece_at p s => exact good_piece_at p s
  | PartialPosition_piece_bitboard p x => exact good_piece p x
  | PartialPosition_piece_kind_bitboard p k => exact good_kind p k
  | PartialPosition_player_bitboard p c => exact good_player p c
  | PieceKind_from_u8 v => exact call_kind v
  | PieceKind_from_u8_unchecked v => exact call_kindU v
  | PieceKind_promote k => exact call_kindP k
  | PieceKind_unpromote k => exact call_kindQ k
  | Piece_color x => exact call_pieceC x
  | Piece_new k c => exact good_new k c
  | Piece_piece_kind x => exact call_pieceK x
  | Piece_promote x => exact call_pieceP x
  | Piece_unpromote x => exact call_pieceQ x
  | Position_hand_of_a_player p c => exact good_hand_of p.inner c
  | Position_piece_at p s => exact good_piece_at p.inner s
  | Position_piece_bitboard p x => exact good_piece p.inner x
  | Position_player_bitboard p c => exact good_player p.inner c
  | Square_file s => exact call_sqFile s
  | Square_flip s => exact call_sqFlip s
  | Square_from_u8 v => exact call_sqF v
  | Square_from_u8_unchecked v => exact call_sqU v
  | Square_index s => exact call_sqIndex s
  | Square_new f r => exact good_sq_new f r
  | Square_new_relative f r c => exact good_new_relative c f r
  | Square_rank s => exact call_sqRank s
  | Square_relative_file s c => exact good_rel_file s c
  | Square_relative_rank s c => exact good_rel_rank s c
  | Square_shift s f r => exact good_shift s f r

/-! ### C93 -/

/-- **C93**: a call with any raw arguments returns exactly if the arguments are in the stated
ranges. -/
theorem C93_defined (c : CCall) : (∃ r, c.exec = .ok r) ↔ c.Defined := by
  rcases good c with ⟨h, r, e, _⟩ | ⟨h, hb⟩
  · exact ⟨fun _ => h, fun _ => ⟨r, e⟩⟩
  · exact ⟨fun x => absurd x hb.not_ok, fun x => absurd x h⟩

/-- **C93**: and then the answer is the stated one. -/
theorem C93_answers (c : CCall) (r : List Nat) (h : c.exec = .ok r) : c.Answer r := by
  rcases good c with ⟨_, r', e, ha⟩ | ⟨_, hb⟩
  · rw [e] at h; cases h; exact ha
  · exact absurd ⟨r, h⟩ hb.not_ok

/-- **C93**: otherwise it is undefined behaviour; a panic comes only in debug builds. -/
theorem C93_undefined (c : CCall) (h : ¬ c.Defined) :
    c.exec = .ub ∨ (c.exec = .panic ∧ Profile.debug = true) := by
  rcases good c with ⟨hd, _⟩ | ⟨_, hb⟩
  · exact absurd hd h
  · exact hb

omit P in
/-- One call of each function. -/
def oneOfEach : List CCall :=
  [.Bitboard_bitand ⟨0, 0⟩ ⟨0, 0⟩,
   .Bitboard_bitand_assign ⟨0, 0⟩ ⟨0, 0⟩, .Bitboard_bitor ⟨0, 0⟩ ⟨0, 0⟩,
   .Bitboard_bitor_assign ⟨0, 0⟩ ⟨0, 0⟩, .Bitboard_bitxor ⟨0, 0⟩ ⟨0, 0⟩,
   .Bitboard_bitxor_assign ⟨0, 0⟩ ⟨0, 0⟩, .Bitboard_contains ⟨0, 0⟩ 0, .Bitboard_count ⟨0, 0⟩,
   .Bitboard_flip ⟨0, 0⟩, .Bitboard_is_empty ⟨0, 0⟩, .Bitboard_not ⟨0, 0⟩, .Bitboard_pop ⟨0, 0⟩,
   .Bitboard_single 0, .Color_flip 0, .CompactMove_drop 0 0, .CompactMove_from 0,
   .CompactMove_is_drop 0, .CompactMove_is_promoting 0, .CompactMove_normal 0 0 false,
   .CompactMove_to 0, .GameResolution_from_u8_unchecked 0,
   .Game_resolve ⟨⟨PartialPosition.empty, PartialPosition.empty, []⟩, ⟨0⟩⟩ 0,
   .Hand_add Hand.new 0, .Hand_count Hand.new 0, .Hand_is_hand_piece 0, .Hand_remove Hand.new 0,
   .IllegalMoveKind_from_u8_unchecked 0, .PartialGame_resolve ⟨PartialPosition.empty, ⟨0⟩⟩ 0,
   .PartialPosition_hand_of_a_player PartialPosition.empty 0, .PartialPosition_piece_at PartialPosition.empty 0,
   .PartialPosition_piece_bitboard PartialPosition.empty 0, .PartialPosition_piece_kind_bitboard PartialPosition.empty 0,
   .PartialPosition_player_bitboard PartialPosition.empty 0, .PieceKind_from_u8 0,
   .PieceKind_from_u8_unchecked 0, .PieceKind_promote 0, .PieceKind_unpromote 0, .Piece_color 0,
   .Piece_new 0 0, .Piece_piece_kind 0, .Piece_promote 0, .Piece_unpromote 0,
   .Position_hand_of_a_player ⟨PartialPosition.empty, PartialPosition.empty, []⟩ 0,
   .Position_piece_at ⟨PartialPosition.empty, PartialPosition.empty, []⟩ 0, .Position_piece_bitboard ⟨PartialPosition.empty, PartialPosition.empty, []⟩ 0,
   .Position_player_bitboard ⟨PartialPosition.empty, PartialPosition.empty, []⟩ 0,
   .Square_file 0, .Square_flip 0, .Square_from_u8 0, .Square_from_u8_unchecked 0,
   .Square_index 0, .Square_new 0 0, .Square_new_relative 0 0 0, .Square_rank 0,
   .Square_relative_file 0 0, .Square_relative_rank 0 0, .Square_shift 0 0 0]

omit P in
/-- A parameter that is not a pointer (include/shogi_core.h:481-1083). -/
def HType.byValue : HType → Bool
  | .ptr .. => false
  | _ => true

/-- **C93**: the calls are all the functions of the header with an argument by value, but for the two
that make a move, and `Bitboard_pop`. -/
theorem C93_complete (n : String) :
    (n ∈ (prototypes.filter fun h => h.args.any HType.byValue).map HSig.name ∨ n = "Bitboard_pop") ↔
      (∃ c : CCall, c.name = n) ∨ n = "PartialPosition_make_compact_move" ∨
        n = "Position_make_compact_move" := by
  have t : ∀ n ∈ "Bitboard_pop" :: (prototypes.filter fun h => h.args.any HType.byValue).map HSig.name,
      n ∈ oneOfEach.map CCall.name ∨ n = "PartialPosition_make_compact_move" ∨
        n = "Position_make_compact_move" := by decide +kernel
  constructor
  · intro h
    rcases t n (List.mem_cons.2 h.symm) with h | h
    · obtain ⟨c, _, e⟩ := List.mem_map.1 h
      exact .inl ⟨c, e⟩
    · exact .inr h
  · rintro (⟨c, rfl⟩ | rfl | rfl)
    · cases c <;> simp only [CCall.name] <;> decide +kernel
    · decide +kernel
    · decide +kernel

/-! ### Concrete cases -/

-- codes that no piece has are taken for White's pieces; 16 and 15 are not
example : (CCall.Piece_color 33).Defined ∧ (CCall.Piece_color 33).Answer [2] ∧ ¬ PieceByte 33 := by
  refine ⟨?_, rfl, ?_⟩
  · show LoosePieceByte _; decide
  · decide
example : ¬ (CCall.Piece_color 16).Defined ∧ ¬ (CCall.Piece_color 15).Defined :=
  ⟨by show ¬ LoosePieceByte _; decide, by show ¬ LoosePieceByte _; decide⟩
example : (CCall.Piece_promote 33).exec = .ok [25] := by
  obtain ⟨r, e⟩ := (C93_defined (.Piece_promote 33)).2 (by show LoosePieceByte _; decide)
  have h : r = [25] := C93_answers _ r e
  rw [e, h]
-- a drop with such a code looks like a promotion
example : (CCall.CompactMove_drop 129 50).exec = .ok [33202] ∧
    (CCall.CompactMove_is_promoting 33202).exec = .ok [1] := by
  obtain ⟨r, e⟩ := (C93_defined (.CompactMove_drop 129 50)).2 ⟨by decide, by decide⟩
  obtain ⟨r', e'⟩ := (C93_defined (.CompactMove_is_promoting 33202)).2 (by show _ ≠ _; decide)
  have h : r = [33202] := C93_answers _ r e
  have h' : r' = [1] := C93_answers _ r' e'
  exact ⟨by rw [e, h], by rw [e', h']⟩
-- a stray top bit of the first word
example : (CCall.Bitboard_count ⟨0x8000000000000001#64, 0⟩).exec = .ok [2] := by
  obtain ⟨r, e⟩ := (C93_defined (.Bitboard_count ⟨0x8000000000000001#64, 0⟩)).2 trivial
  have h := C93_answers _ r e
  have h : r = _ := h
  rw [e, h]; congr 1
-- a full hand starts again
example : (CCall.Hand_add ⟨#v[255, 1, 0, 0, 0, 0, 0, 0]⟩ 1).exec = .ok [0, 1, 0, 0, 0, 0, 0, 0, 1] := by
  obtain ⟨r, e⟩ := (C93_defined (.Hand_add ⟨#v[255, 1, 0, 0, 0, 0, 0, 0]⟩ 1)).2 (by show KindByte _; decide)
  have h : r = _ := C93_answers _ r e
  rw [e, h]; rfl
-- zero is no square, and 82 is caught in a debug build only
example : (CCall.Square_file 0).exec = .ub ∧ ¬ (CCall.Square_file 82).Defined := by
  refine ⟨rfl, ?_⟩
  show ¬ SquareByte _; decide

end ShogiCore
