import Verif.Model.CApi
import Verif.Spec.CApi
import Verif.Props.Client

/- C52: the C wrappers agree with the Rust methods. -/

set_option linter.unusedSectionVars false

namespace ShogiCore

/-! ### The encodings -/

theorem OptionSquare.ofOption_encodes {o : Option Square} (h : ∀ s, o = some s → s.Valid) :
    (OptionSquare.ofOption o).Encodes o := by
  cases o with
  | none => rfl
  | some s =>
    have := h s rfl
    unfold Square.Valid at this
    exact ⟨by show s.val.toNat ≠ 0; omega, rfl⟩

theorem OptionPiece.ofOption_encodes {o : Option Piece} (h : ∀ s, o = some s → s.Valid) :
    (OptionPiece.ofOption o).Encodes o := by
  cases o with
  | none => rfl
  | some s =>
    have := h s rfl
    unfold Piece.Valid at this
    exact ⟨by show s.val.toNat ≠ 0; omega, rfl⟩

theorem OptionPieceKind.ofOption_encodes (o : Option PieceKind) :
    (OptionPieceKind.ofOption o).Encodes o := by
  cases o with
  | none => rfl
  | some k => exact ⟨by cases k <;> decide, rfl⟩

theorem OptionCompactMove.ofOption_encodes {o : Option CompactMove}
    (h : ∀ s, o = some s → s.Valid) : (OptionCompactMove.ofOption o).Encodes o := by
  cases o with
  | none => rfl
  | some c =>
    obtain ⟨m, hm, he⟩ := h c rfl
    refine ⟨?_, rfl⟩
    show c.val.toNat ≠ 0
    cases m with
    | Normal s t pr =>
      have := hm.1.1
      have := hm.2.1
      simp only [CompactMove.encodes] at he; omega
    | Drop p t => simp only [CompactMove.encodes] at he; omega

/-- C52: the code of an optional value determines it: two values with the same code are
equal. -/
theorem C52_decodable :
    (∀ (w : OptionSquare) (a b : Option Square), w.Encodes a → w.Encodes b → a = b) ∧
    (∀ (w : OptionPiece) (a b : Option Piece), w.Encodes a → w.Encodes b → a = b) ∧
    (∀ (w : OptionPieceKind) (a b : Option PieceKind), w.Encodes a → w.Encodes b → a = b) ∧
    (∀ (w : OptionCompactMove) (a b : Option CompactMove), w.Encodes a → w.Encodes b → a = b) ∧
    (∀ (w : OptionGameResolution) (a b : Option GameResolution), w.Encodes a → w.Encodes b →
      a = b) := by
  refine ⟨?_, ?_, ?_, ?_, ?_⟩
  · rintro w (_ | ⟨a⟩) (_ | ⟨b⟩) h1 h2
    · rfl
    · exact absurd h1 h2.1
    · exact absurd h2 h1.1
    · exact congrArg (fun v => some (⟨v⟩ : Square)) (h1.2.symm.trans h2.2)
  · rintro w (_ | ⟨a⟩) (_ | ⟨b⟩) h1 h2
    · rfl
    · exact absurd h1 h2.1
    · exact absurd h2 h1.1
    · exact congrArg (fun v => some (⟨v⟩ : Piece)) (h1.2.symm.trans h2.2)
  · rintro w (_ | a) (_ | b) h1 h2
    · rfl
    · exact absurd h1 h2.1
    · exact absurd h2 h1.1
    · have : a.toU8 = b.toU8 := h1.2.symm.trans h2.2
      revert a b; intro a b _ _ h; revert h; cases a <;> cases b <;> decide
  · rintro w (_ | ⟨a⟩) (_ | ⟨b⟩) h1 h2
    · rfl
    · exact absurd h1 h2.1
    · exact absurd h2 h1.1
    · exact congrArg (fun v => some (⟨v⟩ : CompactMove)) (h1.2.symm.trans h2.2)
  · rintro w (_ | a) (_ | b) h1 h2
    · rfl
    · exact absurd h1 h2.1
    · exact absurd h2 h1.1
    · have : a.toU8 = b.toU8 := h1.2.symm.trans h2.2
      revert a b; intro a b _ _ h; revert h; cases a <;> cases b <;> decide

variable [P : Profile]

/-! ### Squares -/

/-- C52: `Square_new`. -/
theorem C52_Square_new (f r : U8) :
    ∃ w o, Square_new f r = .ok w ∧ Square.new f r = .ok o ∧ w.Encodes o := by
  obtain ⟨o, h1, h2⟩ := from_u8_sane f r
  exact ⟨_, o, by rw [Square_new, h1]; rfl, h1, OptionSquare.ofOption_encodes h2⟩

/-- C52: `Square_new_relative`. -/
theorem C52_Square_new_relative (f r : U8) (c : Color) :
    ∃ w o, Square_new_relative f r c = .ok w ∧ Square.new_relative f r c = .ok o ∧ w.Encodes o := by
  obtain ⟨o, h1, h2⟩ := new_relative_sane f r c
  exact ⟨_, o, by rw [Square_new_relative, h1]; rfl, h1, OptionSquare.ofOption_encodes h2⟩

/-- C52: `Square_from_u8_unchecked` agrees with the checked conversion wherever that succeeds,
and is undefined elsewhere. -/
theorem C52_Square_from_u8_unchecked (v : U8) :
    (∀ s, Square.from_u8 v = some s → Square_from_u8_unchecked v = .ok s) ∧
    (Square.from_u8 v = none → Square_from_u8_unchecked v = .ub) := by
  have key : ∀ v : U8, (∀ s ∈ Square.from_u8 v, Square_from_u8_unchecked v = .ok s) ∧
      (Square.from_u8 v = none → Square_from_u8_unchecked v = .ub) := by decide +kernel
  exact key v

/-! ### Pieces -/

/-- C52: `PieceKind_from_u8`, `PieceKind_promote`, `PieceKind_unpromote`. -/
theorem C52_PieceKind (v : U8) (k : PieceKind) :
    (∃ w o, PieceKind_from_u8 v = .ok w ∧ PieceKind.from_u8 v = .ok o ∧ w.Encodes o) ∧
    (PieceKind_promote k).Encodes k.promote ∧ (PieceKind_unpromote k).Encodes k.unpromote := by
  refine ⟨?_, OptionPieceKind.ofOption_encodes _, OptionPieceKind.ofOption_encodes _⟩
  have key : ∀ v : U8, ∃ o ∈ none :: PieceKind.all.map some, PieceKind.from_u8 v = .ok o := by
    decide +kernel
  obtain ⟨o, _, h⟩ := key v
  exact ⟨_, o, by rw [PieceKind_from_u8, h]; rfl, h, OptionPieceKind.ofOption_encodes o⟩

/-- C52: `PieceKind_from_u8_unchecked`. -/
theorem C52_PieceKind_from_u8_unchecked (v : U8) :
    (∀ k, PieceKind.from_u8 v = .ok (some k) → PieceKind_from_u8_unchecked v = .ok k) ∧
    (PieceKind.from_u8 v = .ok none → PieceKind_from_u8_unchecked v = .ub) := by
  have key : ∀ v : U8,
      (∀ k, PieceKind.from_u8 v = .ok (some k) → PieceKind_from_u8_unchecked v = .ok k) ∧
      (PieceKind.from_u8 v = .ok none → PieceKind_from_u8_unchecked v = .ub) := by decide +kernel
  exact key v

/-- C52: `Piece_promote`, `Piece_unpromote`. -/
theorem C52_Piece (p : Piece) (h : p.Valid) :
    (∃ w o, Piece_promote p = .ok w ∧ p.promote = .ok o ∧ w.Encodes o) ∧
    (∃ w o, Piece_unpromote p = .ok w ∧ p.unpromote = .ok o ∧ w.Encodes o) := by
  obtain ⟨k, c, rfl⟩ := Piece.exists_mk' h
  refine ⟨⟨_, _, by rw [Piece_promote, Piece.promote_mk']; rfl, Piece.promote_mk' k c, ?_⟩,
    ⟨_, _, by rw [Piece_unpromote, Piece.unpromote_mk']; rfl, Piece.unpromote_mk' k c, ?_⟩⟩
  · exact OptionPiece.ofOption_encodes (promoted_valid _ c)
  · exact OptionPiece.ofOption_encodes (promoted_valid _ c)

/-- C52: `Piece_new`. -/
theorem C52_Piece_new (k : PieceKind) (c : Color) :
    ∃ p, Piece_new k c = .ok p ∧ Piece.new k c = .ok p :=
  ⟨_, Piece.new_ok k c, Piece.new_ok k c⟩

/-! ### Hands -/

/-- C52: `Hand_add` and `Hand_remove` succeed exactly when the method they wrap does, with the
same result; on failure the hand is unmodified. -/
theorem C52_Hand (h : Hand) (k : PieceKind) :
    (∃ h' b o, h.Hand_add k = .ok (h', b) ∧ h.added k = .ok o ∧ b = o.isSome ∧
      (∀ g, o = some g → h' = g) ∧ (b = false → h' = h)) ∧
    (∃ h' b o, h.Hand_remove k = .ok (h', b) ∧ h.removed k = .ok o ∧ b = o.isSome ∧
      (∀ g, o = some g → h' = g) ∧ (b = false → h' = h)) ∧
    (∃ n o, h.Hand_count k = .ok n ∧ h.count k = .ok o ∧ (o = none → n = 0) ∧
      ∀ m, o = some m → n = m) ∧
    (Hand_is_hand_piece k = true ↔ ∃ n, h.count k = .ok (some n)) := by
  obtain ⟨h1, h2, h3⟩ := C10_wrappers h k
  refine ⟨?_, ?_, ?_, ?_⟩
  · rw [Hand.added_ok] at h1 ⊢
    generalize (if hk : k.InHand then _ else _ : Option Hand) = o at h1
    cases o with
    | none => exact ⟨_, _, _, h1, rfl, rfl, fun g e => (by cases e), fun _ => rfl⟩
    | some g => exact ⟨_, _, _, h1, rfl, rfl, fun g e => (by cases e; rfl), fun e => (by cases e)⟩
  · rw [Hand.removed_ok] at h2 ⊢
    generalize (if hk : k.InHand then _ else _ : Option Hand) = o at h2
    cases o with
    | none => exact ⟨_, _, _, h2, rfl, rfl, fun g e => (by cases e), fun _ => rfl⟩
    | some g => exact ⟨_, _, _, h2, rfl, rfl, fun g e => (by cases e; rfl), fun e => (by cases e)⟩
  · rw [Hand.count_ok] at h3 ⊢
    generalize (if hk : k.InHand then _ else _ : Option U8) = o at h3
    cases o with
    | none => exact ⟨_, _, h3, rfl, fun _ => rfl, fun g e => by cases e⟩
    | some g => exact ⟨_, _, h3, rfl, fun e => (by cases e), fun g e => by cases e; rfl⟩
  · rw [Hand.count_ok]
    by_cases hk : k.InHand
    · rw [dif_pos hk]
      refine ⟨fun _ => ⟨_, rfl⟩, fun _ => ?_⟩
      have table : ∀ k : PieceKind, k.InHand → Hand_is_hand_piece k = true := by decide
      exact table k hk
    · rw [dif_neg hk]
      have table : ∀ k : PieceKind, Hand_is_hand_piece k = true → k.InHand := by decide
      exact ⟨fun e => absurd (table k e) hk, fun ⟨n, e⟩ => by cases e⟩

/-! ### Moves -/

/-- C52: `CompactMove_from`. -/
theorem C52_CompactMove_from (c : CompactMove) (h : c.Valid) :
    ∃ w o, CompactMove_from c = .ok w ∧ c.src = .ok o ∧ w.Encodes o := by
  obtain ⟨m, hm, he⟩ := h
  have e := CompactMove.src_of_encodes hm he
  exact ⟨_, _, by rw [CompactMove_from, e]; rfl, e, OptionSquare.ofOption_encodes (src_valid hm)⟩

/-! ### Bitboards -/

/-- C52: `Bitboard_pop`; when there is nothing to pop the bitboard is unmodified. -/
theorem C52_Bitboard_pop (b : Bitboard) (h : b.Canonical) :
    ∃ b' w o, Bitboard_pop b = .ok (b', w) ∧ b.pop = .ok (b', o) ∧ w.Encodes o ∧
      (w.val.toNat = 0 → b' = b) := by
  rcases Bitboard.pop_ok h with ⟨_, e⟩ | ⟨i, b', hi, _, _, e, hc, _⟩
  · exact ⟨_, _, _, by rw [Bitboard_pop, e]; rfl, e,
      OptionSquare.ofOption_encodes (o := none) (by simp), fun _ => rfl⟩
  · have he := OptionSquare.ofOption_encodes (o := some (Square.ofIdx i))
      (by intro s hs; cases hs; exact Square.ofIdx_valid hi)
    exact ⟨_, _, _, by rw [Bitboard_pop, e]; rfl, e, he, fun h0 => absurd h0 he.1⟩

/-- C52: the exported set operations, in terms of members. -/
theorem C52_Bitboard_ops (a b : Bitboard) (s : Square) (hs : s.Valid) :
    ((Bitboard_bitand a b).Mem s ↔ a.Mem s ∧ b.Mem s) ∧
    ((Bitboard_bitor a b).Mem s ↔ a.Mem s ∨ b.Mem s) ∧
    ((Bitboard_bitxor a b).Mem s ↔ ¬(a.Mem s ↔ b.Mem s)) ∧
    ((Bitboard_not a).Mem s ↔ ¬a.Mem s) ∧ ¬Bitboard_empty.Mem s ∧
    Bitboard_bitand_assign a b = Bitboard_bitand a b ∧
    Bitboard_bitor_assign a b = Bitboard_bitor a b ∧
    Bitboard_bitxor_assign a b = Bitboard_bitxor a b ∧
    ∃ c, Bitboard_single s = .ok c ∧ ∀ t : Square, t.Valid → (c.Mem t ↔ t = s) := by
  exact ⟨(C15_and a b s hs).1, (C15_or a b s hs).1, (C15_xor a b s hs).1,
    C15_not a s hs, C15_empty s hs, rfl, rfl, rfl, C15_single s hs⟩

/-! ### Positions and games -/

theorem OptionPiece.encodes_toOption (w : OptionPiece) : w.Encodes w.toOption := by
  unfold OptionPiece.toOption
  split
  · rename_i h; show w.val.toNat = 0; rw [h]; rfl
  · rename_i h; exact ⟨fun e => h (BitVec.eq_of_toNat_eq e), rfl⟩

theorem OptionCompactMove.encodes_toOption (w : OptionCompactMove) : w.Encodes w.toOption := by
  unfold OptionCompactMove.toOption
  split
  · rename_i h; show w.val.toNat = 0; rw [h]; rfl
  · rename_i h; exact ⟨fun e => h (BitVec.eq_of_toNat_eq e), rfl⟩

/-- C52: `PartialPosition_piece_at` and `Position_piece_at`. -/
theorem C52_piece_at (p : PartialPosition) (s : Square) (hs : s.Valid) :
    (∃ w o, p.PartialPosition_piece_at s = .ok w ∧ p.piece_at s = .ok o ∧ w.Encodes o) ∧
    ∀ q : Position, q.inner = p →
      ∃ w o, q.Position_piece_at s = .ok w ∧ q.piece_at s = .ok o ∧ w.Encodes o := by
  have key : ∃ w o, p.PartialPosition_piece_at s = .ok w ∧ p.piece_at s = .ok o ∧ w.Encodes o := by
    have h := PartialPosition.piece_at_ok p hs
    cases e : p.PartialPosition_piece_at s with
    | ok w =>
      exact ⟨w, _, rfl, by rw [PartialPosition.piece_at, e]; rfl, OptionPiece.encodes_toOption w⟩
    | panic => rw [PartialPosition.piece_at, e] at h; cases h
    | ub => rw [PartialPosition.piece_at, e] at h; cases h
  refine ⟨key, fun q hq => ?_⟩
  subst hq
  exact key

/-- C52: `PartialPosition_last_compact_move` and `Position_last_compact_move`. -/
theorem C52_last_compact_move (p : PartialPosition) (q : Position) :
    p.PartialPosition_last_compact_move.Encodes p.last_compact_move ∧
    q.Position_last_compact_move.Encodes q.last_compact_move :=
  ⟨OptionCompactMove.encodes_toOption _, OptionCompactMove.encodes_toOption _⟩

/-- C52: `PartialPosition_startpos` overwrites the buffer, whatever it held. -/
theorem C52_startpos (buf : Option PartialPosition) :
    ∃ p, PartialPosition_startpos buf = .ok (some p) ∧ PartialPosition.startpos = .ok p := by
  obtain ⟨p, h, _⟩ := startpos_total
  exact ⟨p, by rw [PartialPosition_startpos, h]; rfl, h⟩

/-- C52: `PartialPosition_make_compact_move` and `Position_make_compact_move`, called on values a
client can have, agree with `make_move`, and leave their argument unmodified when they return
false. -/
theorem C52_make_compact_move {vs : List Val} (h : Execution vs) {c : CompactMove}
    (hc : .cmv c ∈ vs) :
    (∀ p, .pos p ∈ vs → ∃ m q b r, c.toMove = .ok m ∧ p.make_compact_move c = .ok (q, b) ∧
      p.make_move m = .ok (q, r) ∧ b = r.isSome ∧ (b = false → q = p)) ∧
    (∀ p, .position p ∈ vs → ∃ m q b r, c.toMove = .ok m ∧ p.make_compact_move c = .ok (q, b) ∧
      p.make_move m = .ok (q, r) ∧ b = r.isSome ∧ (b = false → q = p)) := by
  obtain ⟨m, hm, he⟩ := execution_sane h _ hc
  have e := CompactMove.toMove_of_encodes hm he
  refine ⟨fun p hp => ?_, fun p hp => ?_⟩
  · have hok : p.Ok := execution_sane h _ hp
    rcases PartialPosition.make_move_ok hok hm with ⟨_, q, e', he⟩ | ⟨_, e'⟩
    · exact ⟨m, _, _, _, e, by rw [PartialPosition.make_compact_move, e, Res.bind_ok, e']; rfl, e',
        rfl, fun h => by cases h⟩
    · exact ⟨m, _, _, _, e, by rw [PartialPosition.make_compact_move, e, Res.bind_ok, e']; rfl, e',
        rfl, fun _ => rfl⟩
  · have hok : p.inner.Ok := (execution_sane h _ hp).2.1
    rcases PartialPosition.make_move_ok hok hm with ⟨_, q, e', he⟩ | ⟨_, e'⟩
    · have e2 : p.make_move m = .ok (⟨p.initial, q, p.moves ++ [m]⟩, some ()) := by
        rw [Position.make_move, e']; rfl
      exact ⟨m, _, _, _, e, by rw [Position.make_compact_move, e, Res.bind_ok, e2]; rfl, e2,
        rfl, fun h => by cases h⟩
    · have e2 : p.make_move m = .ok (p, none) := by
        rw [Position.make_move, e']; rfl
      exact ⟨m, _, _, _, e, by rw [Position.make_compact_move, e, Res.bind_ok, e2]; rfl, e2,
        rfl, fun _ => rfl⟩

/-- C52: `PartialGame_resolution` and `Game_resolution`. -/
theorem C52_resolution {vs : List Val} (h : Execution vs) :
    (∀ g, .pgame g ∈ vs → ∃ o, g.get_resolution = .ok o ∧ g.PartialGame_resolution.Encodes o) ∧
    (∀ g, .game g ∈ vs → ∃ o, g.get_resolution = .ok o ∧ g.Game_resolution.Encodes o) := by
  have key : ∀ w : OptionGameResolution, (∃ r, w.toOption = .ok r) →
      ∃ o, w.toOption = .ok o ∧ w.Encodes o := by
    rintro w ⟨r, hr⟩
    refine ⟨r, hr, ?_⟩
    have hw : w = OptionGameResolution.ofOption r := by
      obtain ⟨v⟩ := w
      cases r with
      | none => revert v; decide +kernel
      | some g => cases g <;> (revert v; decide +kernel)
    rw [hw]
    cases r with
    | none => rfl
    | some g => exact ⟨by cases g <;> decide, rfl⟩
  exact ⟨fun g hg => key _ (execution_sane h _ hg).2, fun g hg => key _ (execution_sane h _ hg).2⟩

/-! ### Concrete cases -/

omit P in
private theorem square_new_table : ∀ d : Build, @Square_new ⟨d⟩ 5 5 = .ok ⟨41⟩ ∧
    @Square_new ⟨d⟩ 10 1 = .ok ⟨0⟩ ∧ @Square_new_relative ⟨d⟩ 1 2 .White = .ok ⟨80⟩ ∧
    @Piece_promote ⟨d⟩ ⟨17⟩ = .ok ⟨25⟩ ∧ @Piece_promote ⟨d⟩ ⟨5⟩ = .ok ⟨0⟩ := by decide +kernel

/-- Non-vacuity: both outcomes of the byte encoding occur. -/
example : Square_new 5 5 = .ok ⟨41⟩ ∧ Square_new 10 1 = .ok ⟨0⟩ ∧
    Square_new_relative 1 2 .White = .ok ⟨80⟩ ∧ Piece_promote ⟨17⟩ = .ok ⟨25⟩ ∧
    Piece_promote ⟨5⟩ = .ok ⟨0⟩ :=
  profile_ind (motive := fun P => @Square_new P 5 5 = .ok ⟨41⟩ ∧ @Square_new P 10 1 = .ok ⟨0⟩ ∧
    @Square_new_relative P 1 2 .White = .ok ⟨80⟩ ∧ @Piece_promote P ⟨17⟩ = .ok ⟨25⟩ ∧
    @Piece_promote P ⟨5⟩ = .ok ⟨0⟩) (fun d => square_new_table d) P

/-- Non-vacuity of `C52_make_compact_move`: a client with the starting position and the compact
moves 7g7f (accepted) and 7f7e (rejected). -/
example : ∃ vs p c c', Execution vs ∧ .pos p ∈ vs ∧ .cmv c ∈ vs ∧ .cmv c' ∈ vs ∧
    (∃ q, p.make_compact_move c = .ok (q, true)) ∧ p.make_compact_move c' = .ok (p, false) := by
  obtain ⟨p, e, hp⟩ := startpos_total
  have hm : Move.Valid (.Normal ⟨61⟩ ⟨60⟩ false) := by decide
  have hm' : Move.Valid (.Normal ⟨60⟩ ⟨59⟩ false) := by decide
  obtain ⟨c, ec, hc⟩ := CompactMove.ofMove_ok hm
  obtain ⟨c', ec', hc'⟩ := CompactMove.ofMove_ok hm'
  have e1 : ∃ q, p.make_move (.Normal ⟨61⟩ ⟨60⟩ false) = .ok (q, some ()) := by
    rw [PartialPosition.startpos_ok] at e
    rcases PartialPosition.make_move_ok hp hm with ⟨_, q, e1, _⟩ | ⟨hn, _⟩
    · exact ⟨q, e1⟩
    · exact absurd (Res.ok.inj e ▸ (by refine ⟨.Pawn, ?_⟩; decide +kernel)) hn
  have e2 : p.make_move (.Normal ⟨60⟩ ⟨59⟩ false) = .ok (p, none) := by
    rcases PartialPosition.make_move_ok hp hm' with ⟨⟨k, hk⟩, _⟩ | ⟨_, e2⟩
    · exfalso
      rw [PartialPosition.startpos_ok] at e
      have h59 : PartialPosition.sp0.cell 59 = none := by decide +kernel
      rw [← Res.ok.inj e] at hk
      have := h59.symm.trans hk.1
      cases this
    · exact e2
  have x1 := Execution.start.call .pos_startpos (by simp) (by rw [e]; rfl)
  have x2 := x1.call (.square_from_u8 61) (by simp) rfl
  have x3 := x2.call (.square_from_u8 60) (by simp) rfl
  have x4 := x3.call (.square_from_u8 59) (by simp) rfl
  rw [show Square.from_u8 61 = some ⟨61⟩ by decide, show Square.from_u8 60 = some ⟨60⟩ by decide,
    show Square.from_u8 59 = some ⟨59⟩ by decide] at x4
  have x5 := x4.call (.move_normal ⟨61⟩ ⟨60⟩ false) (by simp [Val.opt]) rfl
  have x6 := x5.call (.move_normal ⟨60⟩ ⟨59⟩ false) (by simp [Val.opt]) rfl
  have x7 := x6.call (.compact_of_move (.Normal ⟨61⟩ ⟨60⟩ false)) (by simp) (by rw [ec]; rfl)
  have x8 := x7.call (.compact_of_move (.Normal ⟨60⟩ ⟨59⟩ false)) (by simp) (by rw [ec']; rfl)
  obtain ⟨q, e1⟩ := e1
  refine ⟨_, p, c, c', x8, by simp, by simp, by simp, ⟨q, ?_⟩, ?_⟩
  · rw [PartialPosition.make_compact_move, CompactMove.toMove_of_encodes hm hc, Res.bind_ok, e1]; rfl
  · rw [PartialPosition.make_compact_move, CompactMove.toMove_of_encodes hm' hc', Res.bind_ok, e2]
    rfl

end ShogiCore
