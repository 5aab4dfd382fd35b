import Verif.Lemmas.Move
import Verif.Lemmas.Writer
import Verif.Spec.Usi

/- C12-C14: moves, compact moves, USI text of moves. -/

namespace ShogiCore
variable [P : Profile]

/-! ### C12 -/

/-- C12: every move converts to a compact move whose word is the documented formula and is
non-zero, and converts back to the same move. -/
theorem C12_roundtrip (m : Move) (h : m.Valid) :
    ∃ c, CompactMove.ofMove m = .ok c ∧ c.encodes m ∧ c.val ≠ 0 ∧ c.Valid ∧
      c.toMove = .ok m := by
  obtain ⟨c, h1, h2⟩ := CompactMove.ofMove_ok h
  exact ⟨c, h1, h2, CompactMove.ne_zero_of_encodes h h2, ⟨m, h, h2⟩,
    CompactMove.toMove_of_encodes h h2⟩

/-- C12: every valid compact move is the conversion of a valid move. -/
theorem C12_roundtrip_compact (c : CompactMove) (h : c.Valid) :
    ∃ m, c.toMove = .ok m ∧ m.Valid ∧ CompactMove.ofMove m = .ok c := by
  obtain ⟨m, hm, he⟩ := h
  obtain ⟨c', h1, h2⟩ := CompactMove.ofMove_ok hm
  rw [CompactMove.encodes_inj h2 he] at h1
  exact ⟨m, CompactMove.toMove_of_encodes hm he, hm, h1⟩

/-- C12: distinct moves have distinct words. -/
theorem C12_injective (m m' : Move) (h : m.Valid) (h' : m'.Valid) (c : CompactMove)
    (e : CompactMove.ofMove m = .ok c) (e' : CompactMove.ofMove m' = .ok c) : m = m' := by
  obtain ⟨_, h1, _, _, _, h2⟩ := C12_roundtrip m h
  obtain ⟨_, h1', _, _, _, h2'⟩ := C12_roundtrip m' h'
  rw [e] at h1; rw [e'] at h1'; cases h1; cases h1'
  rw [h2] at h2'; cases h2'; rfl

/-- C12: the direct constructors agree with the conversion. -/
theorem C12_constructors (s t : Square) (pr : Bool) (p : Piece) (hs : s.Valid) (ht : t.Valid)
    (hp : p.Valid) :
    CompactMove.normal s t pr = CompactMove.ofMove (.Normal s t pr) ∧
    CompactMove.drop p t = CompactMove.ofMove (.Drop p t) := by
  constructor
  · obtain ⟨c, h1, h2⟩ := CompactMove.normal_ok hs ht pr
    obtain ⟨c', h1', h2'⟩ := CompactMove.ofMove_ok (m := .Normal s t pr) ⟨hs, ht⟩
    rw [h1, h1', CompactMove.encodes_inj h2 h2']
  · obtain ⟨c, h1, h2⟩ := CompactMove.drop_ok hp ht
    obtain ⟨c', h1', h2'⟩ := CompactMove.ofMove_ok (m := .Drop p t) ⟨hp, ht⟩
    rw [h1, h1', CompactMove.encodes_inj h2 h2']

/-- Non-vacuity: 7g7f (61 → 60), and a white pawn drop on 5e (41). -/
example : (Move.Normal ⟨61⟩ ⟨60⟩ false).Valid ∧ (Move.Drop ⟨17⟩ ⟨41⟩).Valid ∧
    CompactMove.encodes ⟨61 * 256 + 60⟩ (.Normal ⟨61⟩ ⟨60⟩ false) := by
  refine ⟨by decide, by decide, rfl⟩

/-! ### C13 -/

/-- C13: the accessors of a move and of its compact form agree. -/
theorem C13_accessors (m : Move) (h : m.Valid) (c : CompactMove)
    (e : CompactMove.ofMove m = .ok c) :
    c.src = .ok m.src ∧ c.to = .ok m.to ∧ c.is_promoting = m.is_promoting ∧
      c.is_drop = m.is_drop := by
  obtain ⟨c', h1, h2⟩ := CompactMove.ofMove_ok h
  rw [e] at h1; cases h1
  exact ⟨CompactMove.src_of_encodes h h2, CompactMove.to_of_encodes h h2,
    CompactMove.is_promoting_of_encodes h h2, CompactMove.is_drop_of_encodes h h2⟩

omit P in
/-- C13: what the accessors of a move say. -/
theorem C13_move_accessors (s t : Square) (pr : Bool) (p : Piece) :
    (Move.Normal s t pr).src = some s ∧ (Move.Normal s t pr).to = t ∧
    (Move.Normal s t pr).is_promoting = pr ∧ (Move.Normal s t pr).is_drop = false ∧
    (Move.Drop p t).src = none ∧ (Move.Drop p t).to = t ∧
    (Move.Drop p t).is_promoting = false ∧ (Move.Drop p t).is_drop = true := by
  cases pr <;> simp [Move.src, Move.to, Move.is_promoting, Move.is_drop]

/-- Non-vacuity: promoting 8h2b+. -/
example : ∃ c, CompactMove.ofMove (.Normal ⟨71⟩ ⟨11⟩ true) = .ok c ∧ c.is_promoting = true ∧
    c.src = .ok (some ⟨71⟩) := by
  obtain ⟨c, h, _⟩ := C12_roundtrip (.Normal ⟨71⟩ ⟨11⟩ true) (by decide)
  obtain ⟨h1, _, h3, _⟩ := C13_accessors _ (by decide) c h
  exact ⟨c, h, h3, h1⟩

/-! ### C14 -/

omit P in
private theorem parse_square_table : ∀ i < 81, ∃ f r : U8,
    squareText (Square.ofIdx i) = [f, r] ∧ parseSquare f r = some (Square.ofIdx i) ∧
    f ≠ asciiByte '+' ∧ r ≠ asciiByte '*' := by
  intro i hi
  have hn : (Square.ofIdx i).val.toNat - 1 = i := by
    simp only [Square.ofIdx, BitVec.toNat_ofNat]; omega
  refine ⟨_, _, by unfold squareText; rw [hn], ?_, ?_, ?_⟩
  · unfold parseSquare
    have e1 : (BitVec.ofNat 8 (49 + i / 9)).toNat = 49 + i / 9 := by
      simp only [BitVec.toNat_ofNat]; omega
    have e2 : (BitVec.ofNat 8 (97 + i % 9)).toNat = 97 + i % 9 := by
      simp only [BitVec.toNat_ofNat]; omega
    rw [e1, e2, if_pos (by omega)]
    unfold Square.at Square.ofIdx
    congr 3; omega
  · intro e
    have := congrArg BitVec.toNat e
    simp only [BitVec.toNat_ofNat, asciiByte] at this
    rw [show '+'.toNat = 43 from rfl] at this; omega
  · intro e
    have := congrArg BitVec.toNat e
    simp only [BitVec.toNat_ofNat, asciiByte] at this
    rw [show '*'.toNat = 42 from rfl] at this; omega

omit P in
theorem parse_squareText {s : Square} (h : s.Valid) : ∃ f r : U8,
    squareText s = [f, r] ∧ parseSquare f r = some s ∧
    f ≠ asciiByte '+' ∧ r ≠ asciiByte '*' := by
  have := parse_square_table s.idx0 (Square.idx0_lt h)
  rwa [Square.ofIdx_idx0 h] at this

omit P in
private theorem parse_kind_table : ∀ k : PieceKind,
    (∃ b ∈ kindText k, kindText k = [b] ∧ parseLetter b = some k) ∨
    (∃ b ∈ kindText k, kindText k = [asciiByte '+', b] ∧ parsePromoted b = some k) := by
  decide +kernel

/-- C14: the independent USI parser recovers the move from the text the crate writes. -/
theorem C14_parse (m : Move) (h : m.Valid) :
    ∃ txt, to_usi_owned m.to_usi = .ok txt ∧ parseUsi txt = some m.forget := by
  refine ⟨_, to_usi_owned_wr (move_to_usi h), ?_⟩
  cases m with
  | Normal s t pr =>
    obtain ⟨f, r, h1, h2, h3, h4⟩ := parse_squareText h.1
    obtain ⟨f', r', h1', h2', h3', h4'⟩ := parse_squareText h.2
    cases pr <;> simp [moveChunks, h1, h1', singly, parseUsi, h2, h2', h3, h4, ascii, Move.forget]
    rfl
  | Drop p t =>
    obtain ⟨k, c, rfl⟩ := Piece.exists_mk' h.1
    obtain ⟨f', r', h1', h2', h3', h4'⟩ := parse_squareText h.2
    have ea : ascii "*" = [asciiByte '*'] := rfl
    rcases parse_kind_table k with ⟨b, _, e1, e2⟩ | ⟨b, _, e1, e2⟩ <;>
      simp [moveChunks, h1', singly, parseUsi, h2', e1, e2, Move.forget, ea]

/-- C14: two moves have the same text iff they are equal up to the colour of a dropped
piece. -/
theorem C14_text_eq_iff (m m' : Move) (h : m.Valid) (h' : m'.Valid) :
    to_usi_owned m.to_usi = to_usi_owned m'.to_usi ↔ m.forget = m'.forget := by
  constructor
  · intro e
    obtain ⟨t, h1, h2⟩ := C14_parse m h
    obtain ⟨t', h1', h2'⟩ := C14_parse m' h'
    rw [h1, h1'] at e; cases e
    rw [h2] at h2'; exact Option.some.inj h2'
  · intro e
    rw [to_usi_owned_wr (move_to_usi h), to_usi_owned_wr (move_to_usi h')]
    cases m <;> cases m' <;> simp_all [Move.forget, moveChunks]

omit P in
/-- C14: `forget` loses exactly the colour of a dropped piece. -/
theorem C14_forget_eq_iff (m m' : Move) (h : m.Valid) (h' : m'.Valid) :
    m.forget = m'.forget ↔ m = m' ∨ ∃ p p' t k, m = .Drop p t ∧ m' = .Drop p' t ∧
      p.piece_kind = .ok k ∧ p'.piece_kind = .ok k := by
  cases m with
  | Normal s t pr => cases m' <;> simp [Move.forget]
  | Drop p t =>
    cases m' with
    | Normal s t pr => simp [Move.forget]
    | Drop p' t' =>
      obtain ⟨k, c, rfl⟩ := Piece.exists_mk' h.1
      obtain ⟨k', c', rfl⟩ := Piece.exists_mk' h'.1
      simp only [Move.forget, UsiMove.drop.injEq, kindOfPiece_mk', Move.Drop.injEq]
      constructor
      · rintro ⟨rfl, rfl⟩; exact .inr ⟨_, _, _, k, ⟨rfl, rfl⟩, ⟨rfl, rfl⟩, by simp, by simp⟩
      · rintro (⟨e, rfl⟩ | ⟨_, _, _, l, ⟨rfl, rfl⟩, ⟨rfl, rfl⟩, e1, e2⟩)
        · exact ⟨(Piece.mk'_inj e).1, rfl⟩
        · rw [Piece.piece_kind_mk'] at e1 e2
          cases e1; cases e2; exact ⟨rfl, rfl⟩

/-- C14: a compact move is written exactly like the move it encodes. -/
theorem C14_compact (m : Move) (h : m.Valid) (c : CompactMove) (e : CompactMove.ofMove m = .ok c)
    {W : Type} [Write W] : (c.to_usi : FmtM W Unit) = m.to_usi := by
  obtain ⟨c', h1, _, _, _, h2⟩ := C12_roundtrip m h
  rw [e] at h1; cases h1
  unfold CompactMove.to_usi; rw [h2]; rfl

/-- Non-vacuity: the texts "7g7f", "8h2b+" and "P*5e". -/
example :
    to_usi_owned (Move.Normal ⟨61⟩ ⟨60⟩ false).to_usi = .ok (ascii "7g7f") ∧
    to_usi_owned (Move.Normal ⟨71⟩ ⟨11⟩ true).to_usi = .ok (ascii "8h2b+") ∧
    to_usi_owned (Move.Drop ⟨17⟩ ⟨41⟩).to_usi = .ok (ascii "P*5e") := by
  refine ⟨?_, ?_, ?_⟩ <;>
    (rw [to_usi_owned_wr (move_to_usi (by decide))]; decide +kernel)

end ShogiCore
