import Verif.Props.RawPanic

/- C96: the C library gives the same answers in every build. -/

set_option linter.unusedSectionVars false

namespace ShogiCore
open PartialPosition

/-! ### Moves -/

theorem same_bind {α β : Type} {x y : Res α} {f g : α → Res β} (h : x = y) (hf : ∀ a, f a = g a) :
    (x >>= f) = (y >>= g) := by rw [h, funext hf]

section
variable (P Q : Profile)

theorem same_promote (x : Piece) : @Piece.promote P x = @Piece.promote Q x := by
  unfold Piece.promote
  refine same_bind rfl ?_
  rintro ⟨k, c⟩
  show (match k.promote with | none => _ | some k => _) = (match k.promote with | none => _ | some k => _)
  cases k.promote with
  | none => rfl
  | some k => simp only [@Piece.new_ok P, @Piece.new_ok Q]

theorem same_unpromote (x : Piece) : @Piece.unpromote P x = @Piece.unpromote Q x := by
  unfold Piece.unpromote
  refine same_bind rfl ?_
  rintro ⟨k, c⟩
  show (match k.unpromote with | none => _ | some k => _) = (match k.unpromote with | none => _ | some k => _)
  cases k.unpromote with
  | none => rfl
  | some k => simp only [@Piece.new_ok P, @Piece.new_ok Q]

theorem same_piece_at (p : PartialPosition) {s : Square} (hs : s.Valid) :
    @piece_at P p s = @piece_at Q p s :=
  (@piece_at_ok P p s hs).trans (@piece_at_ok Q p s hs).symm

theorem same_hand_of (p : PartialPosition) (c : Color) : @hand_of_a_player P p c = @hand_of_a_player Q p c :=
  (@hand_of_a_player_ok P p c).trans (@hand_of_a_player_ok Q p c).symm

theorem same_assign (p : PartialPosition) (c : Color) (h : Hand) :
    @hand_of_a_player_mut_assign P p c h = @hand_of_a_player_mut_assign Q p c h :=
  (@hand_assign_ok P p c h).trans (@hand_assign_ok Q p c h).symm

theorem same_added (h : Hand) (k : PieceKind) : @Hand.added P h k = @Hand.added Q h k :=
  (@Hand.added_ok P h k).trans (@Hand.added_ok Q h k).symm

theorem same_removed (h : Hand) (k : PieceKind) : @Hand.removed P h k = @Hand.removed Q h k :=
  (@Hand.removed_ok P h k).trans (@Hand.removed_ok Q h k).symm

theorem same_set_remove (p : PartialPosition) (b : Bitboard) (o : Option Piece) :
    @piece_set_remove P p b o = @piece_set_remove Q p b o := by
  cases o with
  | none => rfl
  | some x =>
    refine same_bind rfl fun k => ?_
    simp only [@PieceKind.array_index_ok P, @PieceKind.array_index_ok Q, Res.bind_ok, @toNat_kind P, @toNat_kind Q, idx_ok k.idx0_lt, idxSet_ok k.idx0_lt]

theorem same_set_insert (p : PartialPosition) (s : Square) (b : Bitboard) (o : Option Piece) :
    @piece_set_insert P p s b o = @piece_set_insert Q p s b o := by
  cases o with
  | none => rfl
  | some x =>
    refine same_bind rfl fun k => ?_
    simp only [@PieceKind.array_index_ok P, @PieceKind.array_index_ok Q, Res.bind_ok, @toNat_kind P, @toNat_kind Q, idx_ok k.idx0_lt, idxSet_ok k.idx0_lt,
      @const_BK P, @const_BK Q, @const_WK P, @const_WK Q]

theorem same_piece_set (p : PartialPosition) {s : Square} (hs : s.Valid) (o : Option Piece) :
    @piece_set P p s o = @piece_set Q p s o := by
  obtain ⟨h1, h2⟩ := @index_sub P _ hs
  obtain ⟨h1', h2'⟩ := @index_sub Q _ hs
  have hi := Square.idx0_lt hs
  unfold PartialPosition.piece_set
  simp only [@Square.index_ok P _ hs, @Square.index_ok Q _ hs, Res.bind_ok, BitVec.ofNat_eq_ofNat, h1, h1', h2, @piece_at_ok P p s hs, @piece_at_ok Q p s hs,
    setUnchecked_ok hi, show @Bitboard.single_inlined P s = .ok (Bitboard.one s.idx0) from @Bitboard.single_ok P _ hs,
    show @Bitboard.single_inlined Q s = .ok (Bitboard.one s.idx0) from @Bitboard.single_ok Q _ hs]
  exact same_bind rfl fun _ => same_bind (same_set_remove P Q _ _ _) fun _ => same_set_insert P Q _ _ _ _

theorem same_capture (p : PartialPosition) (x : Piece) {t : Square} (ht : t.Valid) :
    @make_move_capture P p x t = @make_move_capture Q p x t := by
  unfold make_move_capture
  simp only [same_piece_at P Q p ht, same_hand_of P Q, same_added P Q, same_assign P Q]

theorem same_ofMove {m m' : Move} (hm : MoveLike m m') : @CompactMove.ofMove P m = @CompactMove.ofMove Q m := by
  cases hm with
  | @normal s t pr hs ht =>
    simp only [CompactMove.ofMove, @Square.index_ok P _ hs, @Square.index_ok Q _ hs, @Square.index_ok P _ ht, @Square.index_ok Q _ ht]
  | @drop x t k c ht e =>
    simp only [CompactMove.ofMove, @Square.index_ok P _ ht, @Square.index_ok Q _ ht]

theorem same_finish (p : PartialPosition) {m m' : Move} (hm : MoveLike m m') :
    @make_move_finish P p m = @make_move_finish Q p m := by
  unfold make_move_finish
  simp only [same_ofMove P Q hm, Color.flip_ok]

theorem same_make_move (p : PartialPosition) {m m' : Move} (hm : MoveLike m m') :
    @make_move P p m = @make_move Q p m := by
  have hm' := hm
  cases hm with
  | @normal s t pr hs ht =>
    simp only [PartialPosition.make_move, same_piece_at P Q p hs, same_promote P Q, same_capture P Q p _ ht,
      same_piece_set P Q _ hs, same_piece_set P Q _ ht, same_finish P Q _ hm']
  | @drop x t k c ht e =>
    simp only [PartialPosition.make_move, same_piece_at P Q p ht, same_unpromote P Q, same_hand_of P Q,
      same_removed P Q, same_assign P Q, same_piece_set P Q _ ht, same_finish P Q _ hm']

theorem same_callMove (p : PartialPosition) (v : U16) : @callMove P p v = @callMove Q p v := by
  by_cases hv : LooseMove v.toNat
  · obtain ⟨m, m', e1, _, e3, _, hm, _⟩ := @word_moves P _ hv
    simp only [PartialPosition.callMove, e1, Res.bind_ok, PartialPosition.make_compact_move, e3,
      same_make_move P Q p hm]
  · rw [(@C94_defined P p v).2 hv, (@C94_defined Q p v).2 hv]

theorem same_callMove_pos (p : Position) (v : U16) : @Position.callMove P p v = @Position.callMove Q p v := by
  by_cases hv : LooseMove v.toNat
  · obtain ⟨m, m', e1, _, e3, _, hm, _⟩ := @word_moves P _ hv
    simp only [Position.callMove, e1, Res.bind_ok, Position.make_compact_move, e3, Position.make_move,
      same_make_move P Q p.inner hm]
  · rw [(@C94_position P p v).2 hv, (@C94_position Q p v).2 hv]

/-! ### Text -/

variable {W : Type} [Write W]

theorem same_usi (x : Piece) : (@Piece.to_usi P W _ x) = @Piece.to_usi Q W _ x := by
  have h := np_parts x
  generalize e : x.to_parts = r at h
  cases r with
  | ok a =>
    obtain ⟨k, c⟩ := a
    rw [@usi_of_parts P _ _ _ _ _ e, @usi_of_parts Q _ _ _ _ _ e, piece_to_usi (P := P), piece_to_usi (P := Q)]
  | panic => exact absurd rfl h
  | ub => rw [@usi_bad P _ _ _ e, @usi_bad Q _ _ _ e]

theorem same_row (p : PartialPosition) (i : Nat) (js : List Nat) (v : U8) (hv : v.toNat + js.length ≤ 9) :
    @to_sfen_row P W _ p i js v = @to_sfen_row Q W _ p i js v := by
  induction js generalizing v with
  | nil => rfl
  | cons j js ih =>
    rw [List.length_cons] at hv
    have h00 : (0 : U8).toNat = 0 := rfl
    have h11 : (1 : U8).toNat = 1 := rfl
    have ha : ∀ P : Profile, (@cadd P 8 v 1) = .ok (v + 1) := fun P => cadd_ok (by omega)
    have hv1 : (v + 1).toNat = v.toNat + 1 := by rw [BitVec.toNat_add]; omega
    simp only [to_sfen_row, same_usi P Q, write_u8_ok (P := P), write_u8_ok (P := Q), ha, FmtM.lift_ok, pure_bind,
      ih 0 (by omega), ih v (by omega), ih (v + 1) (by omega)]

theorem same_sfen (p : PartialPosition) : @to_sfen P W _ p = @to_sfen Q W _ p := by
  have hb : ∀ is, @to_sfen_board P W _ p is = @to_sfen_board Q W _ p is := by
    intro is
    induction is with
    | nil => rfl
    | cons i is ih => simp only [to_sfen_board, same_row P Q p i (List.range 9) 0 (by decide), write_u8_ok (P := P), write_u8_ok (P := Q), ih]
  simp only [to_sfen, hb, hand_to_usi (P := P), hand_to_usi (P := Q), write_u16_ok (P := P), write_u16_ok (P := Q)]

theorem same_sfen_c (p : PartialPosition) (m : Mem) (ptr : Nat) : @to_sfen_c P p m ptr = @to_sfen_c Q p m ptr := by
  unfold to_sfen_c
  rw [same_sfen P Q]

/-! ### Calls -/

theorem words_unique {r r' : List Nat} {f : Nat → Bool} (h : WordsAre r f) (h' : WordsAre r' f) : r = r' := by
  obtain ⟨b, rfl, h⟩ := h
  obtain ⟨b', rfl, h'⟩ := h'
  congr 1
  have e : ∀ i < 128, b.rawBit i = b'.rawBit i := fun i hi => (h i hi).trans (h' i hi).symm
  simp only [rawBit_eq] at e
  obtain ⟨w0, w1⟩ := b
  obtain ⟨v0, v1⟩ := b'
  congr 1
  · refine BitVec.eq_of_getLsbD_eq fun i hi => ?_
    have := e i (by omega)
    rwa [if_pos hi, if_pos hi] at this
  · refine BitVec.eq_of_getLsbD_eq fun i hi => ?_
    have := e (i + 64) (by omega)
    rwa [if_neg (by omega), if_neg (by omega), Nat.add_sub_cancel] at this

theorem flip_unique {b c : Bitboard} (hb : b.Canonical) (hc : c.Canonical)
    (h : ∀ s, SquareByte s → b.rawBit (squareBit s) = c.rawBit (squareBit s)) : b.out = c.out := by
  refine words_unique ⟨b, rfl, fun _ _ => rfl⟩ ⟨c, rfl, fun i hi => ?_⟩
  by_cases hs : i < 63 ∨ 64 ≤ i ∧ i < 82
  · have e : squareBit (if i < 63 then i + 1 else i) = i := by unfold squareBit; split <;> split <;> omega
    have := h (if i < 63 then i + 1 else i) (by unfold SquareByte; split <;> omega)
    rw [e] at this; exact this.symm
  · rw [rawBit_canonical hb hi hs, rawBit_canonical hc hi hs]

/-- The stated answer is the only one. -/
theorem answer_unique (c : CCall) (r r' : List Nat) (h : c.Answer r) (h' : c.Answer r') : r = r' := by
  cases c with
  | Bitboard_pop b =>
    obtain ⟨b1, s1, rfl, h1, h2⟩ := h
    obtain ⟨b2, s2, rfl, h1', h2'⟩ := h'
    rcases first_or b with hb | ⟨i, hi⟩
    · obtain ⟨rfl, rfl⟩ := h1 hb
      obtain ⟨rfl, rfl⟩ := h1' hb
      rfl
    · obtain ⟨rfl, h3⟩ := h2 i hi
      obtain ⟨rfl, h3'⟩ := h2' i hi
      rw [words_unique ⟨b1, rfl, h3⟩ ⟨b2, rfl, h3'⟩]
  | Bitboard_flip b =>
    obtain ⟨b1, rfl, hc, h⟩ := h
    obtain ⟨b2, rfl, hc', h'⟩ := h'
    exact flip_unique hc hc' fun s hs => (h s hs).trans (h' s hs).symm
  | PartialPosition_hand_of_a_player p c => obtain ⟨_, rfl⟩ := h; obtain ⟨_, rfl⟩ := h'; rfl
  | PartialPosition_piece_at p c => obtain ⟨_, rfl⟩ := h; obtain ⟨_, rfl⟩ := h'; rfl
  | PartialPosition_piece_kind_bitboard p c => obtain ⟨_, rfl⟩ := h; obtain ⟨_, rfl⟩ := h'; rfl
  | PartialPosition_player_bitboard p c => obtain ⟨_, rfl⟩ := h; obtain ⟨_, rfl⟩ := h'; rfl
  | Position_hand_of_a_player p c => obtain ⟨_, rfl⟩ := h; obtain ⟨_, rfl⟩ := h'; rfl
  | Position_piece_at p c => obtain ⟨_, rfl⟩ := h; obtain ⟨_, rfl⟩ := h'; rfl
  | Position_player_bitboard p c => obtain ⟨_, rfl⟩ := h; obtain ⟨_, rfl⟩ := h'; rfl
  | PartialPosition_piece_bitboard p c => obtain ⟨_, h⟩ := h; obtain ⟨_, h'⟩ := h'; exact words_unique h h'
  | Position_piece_bitboard p c => obtain ⟨_, h⟩ := h; obtain ⟨_, h'⟩ := h'; exact words_unique h h'
  | _ => first | exact words_unique h h' | exact Eq.trans h (Eq.symm h')

theorem same_defined (c : CCall) (h : ¬ c.Stray) : @CCall.Defined P c → @CCall.Defined Q c := by
  cases c with
  | Bitboard_pop b =>
    intro hd i hi
    rcases hd i hi with h1 | ⟨rfl, _⟩ | h1
    · exact .inl h1
    · exact absurd hi h
    · exact .inr (.inr h1)
  | _ => exact id

theorem same_call (c : CCall) (h : ¬ c.Stray) : @CCall.exec P c = @CCall.exec Q c := by
  by_cases hd : @CCall.Defined P c
  · obtain ⟨r, e⟩ := (@C93_defined P c).2 hd
    obtain ⟨r', e'⟩ := (@C93_defined Q c).2 (same_defined P Q c h hd)
    rw [e, e', answer_unique c r r' (@C93_answers P c r e) (@C93_answers Q c r' e')]
  · have hd' : ¬ @CCall.Defined Q c := fun x => hd (same_defined Q P c h x)
    have h1 := (@C93_undefined P c hd).resolve_right fun x => @np_call P c h x.1
    have h2 := (@C93_undefined Q c hd').resolve_right fun x => @np_call Q c h x.1
    rw [h1, h2]

/-! ### Positions -/

theorem like_valid {m : Move} (h : m.Valid) : MoveLike m m := by
  cases m with
  | Normal s t pr => exact .normal pr h.1 h.2
  | Drop x t =>
    obtain ⟨k, c, rfl⟩ := Piece.exists_mk' h.1
    exact .drop h.2 (Piece.to_parts_mk' k c)

theorem same_step {p q : PartialPosition} (h : @ApiStep P p q) : @ApiStep Q p q := by
  cases h with
  | make_move hm e => exact .make_move hm ((same_make_move P Q p (like_valid hm)).symm.trans e)
  | @make_compact_move _ c r hc e =>
    obtain ⟨m, hm, henc⟩ := hc
    refine .make_compact_move ⟨m, hm, henc⟩ (r := r) ?_
    rw [← e]
    simp only [PartialPosition.make_compact_move, CompactMove.toMove_of_encodes hm henc, Res.bind_ok,
      same_make_move P Q p (like_valid hm)]
  | piece_set hs ho e => exact .piece_set hs ho ((same_piece_set P Q p hs _).symm.trans e)
  | hand hh e => exact .hand hh ((same_assign P Q p _ _).symm.trans e)
  | side => exact .side
  | ply => exact .ply

theorem same_reach {p : PartialPosition} (h : @ApiReach P p) : @ApiReach Q p := by
  induction h with
  | empty => exact .empty
  | startpos e => exact .startpos ((@startpos_ok Q).trans ((@startpos_ok P).symm.trans e))
  | step _ h ih => exact .step ih (same_step P Q h)

end

/-! ### C96 -/

/-- **C96**: two builds do the same in every call, undefined behaviour included, unless a square
number above 81 is passed or the stray bit 63 is taken from a bitboard. -/
theorem C96_calls (P Q : Profile) (e : CEntry) (h : ∀ c, e = .call c → ¬ c.Stray) :
    @CEntry.run P e = @CEntry.run Q e := by
  cases e with
  | call c => exact same_call P Q c (h c rfl)
  | PartialPosition_make_compact_move p v => simp only [CEntry.run, same_callMove P Q]
  | Position_make_compact_move p v => simp only [CEntry.run, same_callMove_pos P Q]
  | PartialPosition_to_sfen_c p m ptr => simp only [CEntry.run, same_sfen_c P Q]
  | Position_to_sfen_c p m ptr => simp only [CEntry.run, Position.to_sfen_c, same_sfen_c P Q]
  | PartialPosition_startpos => simp only [CEntry.run, @startpos_ok P, @startpos_ok Q]
  | Position_startpos => simp only [CEntry.run, Position.startpos, @startpos_ok P, @startpos_ok Q]
  | _ => rfl

/-- **C96**: an answer given by any build is given by every release build. -/
theorem C96_release (P Q : Profile) (hQ : @Profile.debug Q = false) (e : CEntry) (r : List Nat)
    (h : @CEntry.run P e = .ok r) : @CEntry.run Q e = .ok r := by
  cases e with
  | call c =>
    have h : @CCall.exec P c = .ok r := h
    have hd : @CCall.Defined Q c := by
      have hd := (@C93_defined P c).1 ⟨r, h⟩
      cases c with
      | Bitboard_pop b =>
        intro i hi
        rcases hd i hi with h1 | ⟨h1, _⟩ | h1
        · exact .inl h1
        · exact .inr (.inl ⟨h1, hQ⟩)
        · exact .inr (.inr h1)
      | _ => exact hd
    obtain ⟨r', e'⟩ := (@C93_defined Q c).2 hd
    have := answer_unique c r r' (@C93_answers P c r h) (@C93_answers Q c r' e')
    rw [this]; exact e'
  | _ => rw [← C96_calls P Q _ (fun c e => by cases e)]; exact h

/-- **C96**: positions after moves are the same in all builds, byte by byte, whatever the words and
whatever the bytes of the position; also after a series of moves. -/
theorem C96_moves (P Q : Profile) :
    (∀ (p : PartialPosition) v, @callMove P p v = @callMove Q p v) ∧
    (∀ (p : Position) v, @Position.callMove P p v = @Position.callMove Q p v) ∧
    ∀ (p : PartialPosition) vs, @callMoves P p vs = @callMoves Q p vs := by
  refine ⟨same_callMove P Q, same_callMove_pos P Q, fun p vs => ?_⟩
  induction vs generalizing p with
  | nil => rfl
  | cons v vs ih => simp only [callMoves, same_callMove P Q, ih]

/-- **C96**: all builds write the same text into every sink, in the same pieces, and the same bytes
into memory. -/
theorem C96_text (P Q : Profile) (p : PartialPosition) :
    (∀ {W : Type} [Write W], (@to_sfen P W _ p) = @to_sfen Q W _ p) ∧
    ∀ (m : Mem) ptr, @to_sfen_c P p m ptr = @to_sfen_c Q p m ptr :=
  ⟨same_sfen P Q p, same_sfen_c P Q p⟩

/-- **C96**: the positions a program can come to with the safe API are the same in all builds. -/
theorem C96_positions (P Q : Profile) (p : PartialPosition) : @ApiReach P p ↔ @ApiReach Q p :=
  ⟨same_reach P Q, same_reach Q P⟩

/-! ### Concrete cases -/

-- builds that differ in both respects
example (p : PartialPosition) (v : U16) :
    @callMove ⟨⟨true, .w32⟩⟩ p v = @callMove ⟨⟨false, .w64⟩⟩ p v := (C96_moves _ _).1 p v
-- an undocumented code, dropped on the position full of bytes 255
example : @CEntry.run ⟨⟨true, .w64⟩⟩ (.PartialPosition_make_compact_move junk 0x8132) =
    @CEntry.run ⟨⟨false, .w64⟩⟩ (.PartialPosition_make_compact_move junk 0x8132) :=
  C96_calls _ _ _ fun c e => by cases e
-- the exception: only a release build takes the stray bit
example : @CEntry.run ⟨⟨true, .w64⟩⟩ (.call (.Bitboard_pop ⟨0x8000000000000000#64, 0⟩)) = .panic ∧
    @CEntry.run ⟨⟨false, .w64⟩⟩ (.call (.Bitboard_pop ⟨0x8000000000000000#64, 0⟩)) = .ok [0, 0, 63] := by
  decide +kernel
example : @CEntry.run ⟨⟨false, .w64⟩⟩ (.call (.Square_new 7 6)) = .ok [60] :=
  C96_release ⟨⟨true, .w32⟩⟩ _ rfl _ _ (by decide +kernel)

end ShogiCore
