import Verif.Lemmas.Piece
import Verif.Model.CApi

/- C06-C08: piece kinds, pieces, C-compatible option encodings. -/

namespace ShogiCore

/-! ### C06 -/

/-- C06: `promote` is the promotion relation of the rules of shogi. -/
theorem C06_promote_spec (k k' : PieceKind) : k.promote = some k' ↔ PromotesTo k k' := by
  constructor
  · intro h; cases k <;> cases h <;> constructor
  · rintro ⟨⟩ <;> rfl

/-- C06: promotion and un-promotion are mutually inverse. -/
theorem C06_inverse (k k' : PieceKind) : k.promote = some k' ↔ k'.unpromote = some k := by
  revert k k'; decide +kernel

/-- C06: `promote` is `None` exactly for gold, king and already promoted kinds. -/
theorem C06_promote_none (k : PieceKind) :
    k.promote = none ↔ k = .Gold ∨ k = .King ∨ ∃ l : PieceKind, l.promote = some k := by
  revert k; decide +kernel

/-- C06: `unpromote` is `None` exactly for kinds that are not the promotion of another. -/
theorem C06_unpromote_none (k : PieceKind) :
    k.unpromote = none ↔ ¬ ∃ l : PieceKind, l.promote = some k := by
  revert k; decide +kernel

section
variable [Profile]

/-- C06: `Piece::promote`/`unpromote` act on the kind and keep the colour. -/
theorem C06_piece (p : Piece) (h : p.Valid) (k : PieceKind) (c : Color)
    (hp : p.to_parts = .ok (k, c)) :
    (match k.promote with
     | none => p.promote = .ok none
     | some k' => ∃ q, p.promote = .ok (some q) ∧ q.Valid ∧ q.to_parts = .ok (k', c)) ∧
    (match k.unpromote with
     | none => p.unpromote = .ok none
     | some k' => ∃ q, p.unpromote = .ok (some q) ∧ q.Valid ∧ q.to_parts = .ok (k', c)) := by
  obtain ⟨k, c, rfl⟩ := Piece.exists_mk' h
  rw [Piece.to_parts_mk'] at hp; cases hp
  constructor
  · cases h : k.promote with
    | none => simp [h]
    | some l => exact ⟨_, by simp [h], Piece.mk'_valid l c, Piece.to_parts_mk' l c⟩
  · cases h : k.unpromote with
    | none => simp [h]
    | some l => exact ⟨_, by simp [h], Piece.mk'_valid l c, Piece.to_parts_mk' l c⟩

/-- C06: on pieces too, promotion and un-promotion are mutually inverse. -/
theorem C06_piece_inverse (p q : Piece) (hp : p.Valid) (hq : q.Valid) :
    p.promote = .ok (some q) ↔ q.unpromote = .ok (some p) := by
  obtain ⟨k, c, rfl⟩ := Piece.exists_mk' hp
  obtain ⟨l, d, rfl⟩ := Piece.exists_mk' hq
  have key : ∀ k l : PieceKind, ∀ c d : Color,
      k.promote.map (Piece.mk' · c) = some (Piece.mk' l d) ↔
      l.unpromote.map (Piece.mk' · d) = some (Piece.mk' k c) := by decide +kernel
  simp only [Piece.promote_mk', Piece.unpromote_mk', Res.ok.injEq]
  exact key k l c d

/-- Non-vacuity: White's bishop (22) promotes to White's horse (29). -/
example : (⟨22⟩ : Piece).Valid ∧ (⟨22⟩ : Piece).to_parts = .ok (.Bishop, .White) ∧
    (⟨22⟩ : Piece).promote = .ok (some ⟨29⟩) :=
  ⟨by decide, by decide, Piece.promote_mk' .Bishop .White⟩

/-! ### C07 -/

/-- C07: a piece is exactly a (kind, colour) pair. -/
theorem C07_new (k : PieceKind) (c : Color) :
    ∃ p, Piece.new k c = .ok p ∧ p.Valid ∧ p.to_parts = .ok (k, c) ∧
      p.piece_kind = .ok k ∧ p.color = .ok c :=
  ⟨_, Piece.new_ok k c, Piece.mk'_valid k c, by simp⟩

/-- C07: every valid byte 1..=14, 17..=30 is `new` of its parts. -/
theorem C07_to_parts (p : Piece) (h : p.Valid) :
    ∃ k c, p.to_parts = .ok (k, c) ∧ Piece.new k c = .ok p := by
  obtain ⟨k, c, rfl⟩ := Piece.exists_mk' h
  exact ⟨k, c, by simp⟩

/-- C07: the byte is 1..=14 for Black, 17..=30 for White, in the order of the kinds. -/
theorem C07_bytes (k : PieceKind) (c : Color) (p : Piece) (h : Piece.new k c = .ok p) :
    p.as_u8.toNat = k.toU8.toNat + (if c = .White then 16 else 0) ∧
    (c = .Black ↔ 1 ≤ p.as_u8.toNat ∧ p.as_u8.toNat ≤ 14) ∧
    (c = .White ↔ 17 ≤ p.as_u8.toNat ∧ p.as_u8.toNat ≤ 30) := by
  rw [Piece.new_ok] at h; cases h
  revert k c; decide +kernel

omit [Profile] in
private theorem all_table : ∀ d : Build, @Piece.all ⟨d⟩ = .ok (Vector.mk
    #[⟨1⟩, ⟨17⟩, ⟨2⟩, ⟨18⟩, ⟨3⟩, ⟨19⟩, ⟨4⟩, ⟨20⟩, ⟨5⟩, ⟨21⟩, ⟨6⟩, ⟨22⟩, ⟨7⟩, ⟨23⟩,
      ⟨8⟩, ⟨24⟩, ⟨9⟩, ⟨25⟩, ⟨10⟩, ⟨26⟩, ⟨11⟩, ⟨27⟩, ⟨12⟩, ⟨28⟩, ⟨13⟩, ⟨29⟩, ⟨14⟩, ⟨30⟩]
      (by decide)) := by decide +kernel

/-- C07: `Piece::all` lists every piece exactly once. -/
theorem C07_all : ∃ v, Piece.all = .ok v ∧ v.toList.Nodup ∧
    (∀ p : Piece, p ∈ v.toList ↔ p.Valid) := by
  rename_i P
  refine ⟨_, profile_ind (motive := fun P => @Piece.all P = _) all_table P, by decide +kernel, ?_⟩
  intro p
  have : ∀ v : U8, (⟨v⟩ : Piece) ∈ [(⟨1⟩ : Piece), ⟨17⟩, ⟨2⟩, ⟨18⟩, ⟨3⟩, ⟨19⟩, ⟨4⟩, ⟨20⟩, ⟨5⟩,
      ⟨21⟩, ⟨6⟩, ⟨22⟩, ⟨7⟩, ⟨23⟩, ⟨8⟩, ⟨24⟩, ⟨9⟩, ⟨25⟩, ⟨10⟩, ⟨26⟩, ⟨11⟩, ⟨27⟩, ⟨12⟩, ⟨28⟩,
      ⟨13⟩, ⟨29⟩, ⟨14⟩, ⟨30⟩] ↔ (⟨v⟩ : Piece).Valid := forall_u8 (by decide +kernel)
  exact this p.val

omit [Profile] in
private theorem array_index_table : ∀ d : Build, ∀ k : PieceKind, ∀ c : Color,
    @Piece.array_index ⟨d⟩ (Piece.mk' k c) =
      .ok (BitVec.ofNat d.ptr.bits ((Piece.mk' k c).val.toNat - 1)) := by decide +kernel

/-- C07: array indices are in bounds and distinct (index + 1 = byte). -/
theorem C07_array_index (p : Piece) (h : p.Valid) :
    ∃ i, p.array_index = .ok i ∧ i.toNat < 31 ∧ i.toNat + 1 = p.as_u8.toNat := by
  rename_i P
  obtain ⟨k, c, rfl⟩ := Piece.exists_mk' h
  refine ⟨_, array_index_table P.build k c, ?_⟩
  have hv : ∀ k c, (Piece.mk' k c).val.toNat - 1 < 31 ∧
      (Piece.mk' k c).val.toNat - 1 + 1 = (Piece.mk' k c).as_u8.toNat := by decide +kernel
  rw [usize_toNat (Nat.lt_trans (hv k c).1 (by decide))]
  exact hv k c

/-- C07: kinds and colours: discriminants, array indices, `all`. -/
theorem C07_kind_color :
    (∀ k : PieceKind, ∃ i, k.array_index = .ok i ∧ i.toNat < PieceKind.NUM ∧
      i.toNat + 1 = k.toU8.toNat) ∧
    (∀ k : PieceKind, k ∈ PieceKind.all) ∧ PieceKind.all.Nodup ∧
    (∀ c : Color, ∃ i, c.array_index = .ok i ∧ i.toNat < Color.NUM ∧ i.toNat + 1 = c.toU8.toNat) ∧
    (∀ c : Color, c ∈ Color.all) ∧ Color.all.Nodup ∧
    (∀ c : Color, (∃ d, c.flip = .ok d ∧ d ≠ c) ∧ (c.flip >>= Color.flip) = .ok c) := by
  refine ⟨fun k => ⟨_, k.array_index_ok, ?_⟩, PieceKind.mem_all, by decide,
    fun c => ⟨_, c.array_index_ok, ?_⟩, by decide +kernel, by decide, ?_⟩
  · rw [usize_toNat (Nat.lt_trans k.idx0_lt (by decide))]
    revert k; decide +kernel
  · rw [usize_toNat (Nat.lt_trans c.idx0_lt (by decide))]
    revert c; decide +kernel
  · intro c; exact ⟨⟨_, c.flip_ok, c.other_ne⟩, by simp⟩

/-- Non-vacuity: 25 is White's tokin. -/
example : (⟨25⟩ : Piece).Valid ∧ (⟨25⟩ : Piece).to_parts = .ok (.ProPawn, .White) := by decide

end

/-! ### C08 -/

/-- C08, squares: lossless, and 0 is exactly `None`. -/
theorem C08_square (o : Option Square) (h : ∀ s, o = some s → s.Valid) :
    (OptionSquare.ofOption o).toOption = o ∧ ((OptionSquare.ofOption o).val = 0 ↔ o = none) := by
  cases o with
  | none => decide
  | some s =>
    have hs := h s rfl
    have : s.val ≠ 0#8 := by unfold Square.Valid at hs; intro e; rw [e] at hs; simp at hs
    simp [OptionSquare.ofOption, OptionSquare.toOption, this]

/-- C08, pieces. -/
theorem C08_piece (o : Option Piece) (h : ∀ p, o = some p → p.Valid) :
    (OptionPiece.ofOption o).toOption = o ∧ ((OptionPiece.ofOption o).val = 0 ↔ o = none) := by
  cases o with
  | none => decide
  | some s =>
    have hs := h s rfl
    have : s.val ≠ 0#8 := by unfold Piece.Valid at hs; intro e; rw [e] at hs; simp at hs
    simp [OptionPiece.ofOption, OptionPiece.toOption, this]

/-- C08, piece kinds (no invalid enum value is produced: the result is `.ok`). -/
theorem C08_piece_kind (o : Option PieceKind) :
    (OptionPieceKind.ofOption o).toOption = .ok o ∧
      ((OptionPieceKind.ofOption o).val = 0 ↔ o = none) := by
  cases o with
  | none => decide
  | some k => revert k; decide +kernel

/-- C08, compact moves. -/
theorem C08_compact_move (o : Option CompactMove) (h : ∀ m, o = some m → m.Valid) :
    (OptionCompactMove.ofOption o).toOption = o ∧
      ((OptionCompactMove.ofOption o).val = 0 ↔ o = none) := by
  cases o with
  | none => decide
  | some m =>
    obtain ⟨mv, hv, he⟩ := h m rfl
    have : m.val ≠ 0#16 := by
      intro e
      cases mv <;> simp only [Move.Valid, Square.Valid, CompactMove.encodes, e] at hv he <;>
        simp at he <;> omega
    simp [OptionCompactMove.ofOption, OptionCompactMove.toOption, this]

/-- C08, game resolutions. -/
theorem C08_game_resolution (o : Option GameResolution) :
    (OptionGameResolution.ofOption o).toOption = .ok o ∧
      ((OptionGameResolution.ofOption o).val = 0 ↔ o = none) := by
  cases o with
  | none => decide
  | some k => cases k <;> decide

/-- C08, `Result<(), IllegalMoveKind>` and `Option<IllegalMoveKind>`. -/
theorem C08_illegal_move_kind (r : Except IllegalMoveKind Unit) (o : Option IllegalMoveKind) :
    (ResultUnitIllegalMoveKind.ofResult r).toResult = .ok r ∧
      ((ResultUnitIllegalMoveKind.ofResult r).val = 0 ↔ r = .ok ()) ∧
    (ResultUnitIllegalMoveKind.ofOption o).toOption = .ok o ∧
      ((ResultUnitIllegalMoveKind.ofOption o).val = 0 ↔ o = none) := by
  refine ⟨?_, ?_, ?_, ?_⟩
  · rcases r with k | ⟨⟩
    · cases k <;> rfl
    · rfl
  · rcases r with k | ⟨⟩
    · cases k <;> simp [ResultUnitIllegalMoveKind.ofResult, IllegalMoveKind.toU8]
    · simp [ResultUnitIllegalMoveKind.ofResult]
  · rcases o with _ | k
    · rfl
    · cases k <;> rfl
  · rcases o with _ | k
    · simp [ResultUnitIllegalMoveKind.ofOption]
    · cases k <;> simp [ResultUnitIllegalMoveKind.ofOption, IllegalMoveKind.toU8]

/-- C08: `PieceKind::from_u8` accepts exactly 1..=14 and inverts the discriminant. -/
theorem C08_piece_kind_from_u8 (v : U8) :
    (1 ≤ v.toNat ∧ v.toNat ≤ 14 → ∃ k, PieceKind.from_u8 v = .ok (some k) ∧ k.toU8 = v) ∧
    (¬ (1 ≤ v.toNat ∧ v.toNat ≤ 14) → PieceKind.from_u8 v = .ok none) := by
  revert v; exact forall_u8 (by decide +kernel)

/-- C08: `IllegalMoveKind::from_u8` accepts exactly 1..=7 and inverts the discriminant. -/
theorem C08_illegal_move_kind_from_u8 (v : U8) :
    (1 ≤ v.toNat ∧ v.toNat ≤ 7 → ∃ k, IllegalMoveKind.from_u8 v = .ok (some k) ∧ k.toU8 = v) ∧
    (¬ (1 ≤ v.toNat ∧ v.toNat ≤ 7) → IllegalMoveKind.from_u8 v = .ok none) := by
  refine ⟨fun h => ?_, fun h => by unfold IllegalMoveKind.from_u8; rw [if_neg h]⟩
  have : v.toNat = 1 ∨ v.toNat = 2 ∨ v.toNat = 3 ∨ v.toNat = 4 ∨ v.toNat = 5 ∨ v.toNat = 6 ∨
    v.toNat = 7 := by omega
  rcases this with e | e | e | e | e | e | e <;>
    (simp only [IllegalMoveKind.from_u8, IllegalMoveKind.from_u8_unchecked, e]
     exact ⟨_, rfl, BitVec.eq_of_toNat_eq (by rw [e]; rfl)⟩)

/-- Non-vacuity: the C value of `Some(9i)` is 81 and comes back. -/
example : (OptionSquare.ofOption (some ⟨81⟩)).toOption = some ⟨81⟩ :=
  (C08_square (some ⟨81⟩) (by rintro s ⟨⟩; decide)).1

end ShogiCore
