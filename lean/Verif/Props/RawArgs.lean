import Verif.Props.CApi
import Verif.Props.RawStruct
import Verif.Props.Header
import Verif.Spec.RawCall

/- C93: raw values passed from C: the arguments. -/

set_option linter.unusedSectionVars false

namespace ShogiCore
open PartialPosition

variable [P : Profile]

/-! ### What happens to a bad argument -/

/-- Undefined, or caught by a check of the debug build. -/
def Res.Bad {α : Type} (x : Res α) : Prop := x = .ub ∨ (x = .panic ∧ Profile.debug = true)

/-- Defined exactly if `D`. -/
def Res.Out {α : Type} (D : Prop) (x : Res α) : Prop :=
  (D ∧ ∃ r, x = .ok r) ∨ (¬ D ∧ x.Bad)

theorem Res.Bad.bind {α β : Type} {x : Res α} (h : x.Bad) (f : α → Res β) : (x >>= f).Bad := by
  rcases h with rfl | ⟨rfl, h⟩
  · exact .inl rfl
  · exact .inr ⟨rfl, h⟩

theorem Res.Bad.ub {α : Type} : (Res.ub : Res α).Bad := .inl rfl

theorem Res.Bad.not_ok {α : Type} {x : Res α} (h : x.Bad) : ¬ ∃ r, x = .ok r := by
  rintro ⟨r, e⟩; rcases h with h | ⟨h, _⟩ <;> rw [h] at e <;> cases e

/-- The argument decides. -/
theorem Res.Out.arg {α β : Type} {D : Prop} {x : Res α} (h : x.Out D) {f : α → Res β}
    (hf : ∀ a, x = .ok a → ∃ r, f a = .ok r) : (x >>= f).Out D := by
  rcases h with ⟨hD, r, e⟩ | ⟨hD, hb⟩
  · refine .inl ⟨hD, ?_⟩
    obtain ⟨r', e'⟩ := hf r e
    exact ⟨r', by rw [e, Res.bind_ok, e']⟩
  · exact .inr ⟨hD, hb.bind f⟩

theorem Res.Out.both {α β : Type} {D E : Prop} {x : Res α} (h : x.Out D) {f : α → Res β}
    (hf : ∀ a, x = .ok a → (f a).Out E) : (x >>= f).Out (D ∧ E) := by
  rcases h with ⟨hD, r, e⟩ | ⟨hD, hb⟩
  · rw [e, Res.bind_ok]
    rcases hf r e with ⟨hE, r', e'⟩ | ⟨hE, hb⟩
    · exact .inl ⟨⟨hD, hE⟩, r', e'⟩
    · exact .inr ⟨fun h => hE h.2, hb⟩
  · exact .inr ⟨fun h => hD h.1, hb.bind f⟩

theorem Res.Out.total {α : Type} {x : Res α} (h : ∃ r, x = .ok r) : x.Out True := .inl ⟨trivial, h⟩

theorem Res.Out.congr {α : Type} {x : Res α} {D E : Prop} (h : x.Out D) (e : D ↔ E) : x.Out E := by
  rcases h with ⟨hD, h⟩ | ⟨hD, h⟩
  · exact .inl ⟨e.1 hD, h⟩
  · exact .inr ⟨fun h => hD (e.2 h), h⟩

/-! ### The types of the arguments -/

theorem color_arg (v : U8) : (Color.arg v).Out (ColorByte v.toNat) := by
  unfold Color.arg Color.transmute ColorByte
  by_cases h1 : v = 1
  · subst h1; exact .inl ⟨.inl rfl, _, rfl⟩
  · by_cases h2 : v = 2
    · subst h2; exact .inl ⟨.inr rfl, _, rfl⟩
    · rw [if_neg h1, if_neg h2]
      refine .inr ⟨?_, .ub⟩
      rintro (h | h)
      · exact h1 (BitVec.eq_of_toNat_eq h)
      · exact h2 (BitVec.eq_of_toNat_eq h)

omit P in
private theorem kind_table : ∀ n < 256,
    ((1 ≤ n ∧ n ≤ 14) ∧ ∃ k : PieceKind, PieceKind.arg (BitVec.ofNat 8 n) = .ok k) ∨
      (¬ (1 ≤ n ∧ n ≤ 14) ∧ PieceKind.arg (BitVec.ofNat 8 n) = .ub) := by decide +kernel

omit P in
theorem at_byte {p : Nat → U8 → Prop} (h : ∀ n < 256, p n (BitVec.ofNat 8 n)) (v : U8) : p v.toNat v := by
  have := h v.toNat v.isLt
  rwa [BitVec.ofNat_toNat, BitVec.setWidth_eq] at this

theorem kind_arg (v : U8) : (PieceKind.arg v).Out (KindByte v.toNat) := by
  rcases at_byte (p := fun n v => ((1 ≤ n ∧ n ≤ 14) ∧ ∃ k : PieceKind, PieceKind.arg v = .ok k) ∨
      (¬ (1 ≤ n ∧ n ≤ 14) ∧ PieceKind.arg v = .ub)) kind_table v with h | ⟨h, e⟩
  · exact .inl h
  · exact .inr ⟨h, .inl e⟩

theorem resolution_arg (v : U8) : (GameResolution.arg v).Out (1 ≤ v.toNat ∧ v.toNat ≤ 5) := by
  have h : ∀ n < 256, ((1 ≤ n ∧ n ≤ 5) ∧ GameResolution.arg (BitVec.ofNat 8 n) ≠ .ub ∧
      GameResolution.arg (BitVec.ofNat 8 n) ≠ .panic) ∨
    (¬ (1 ≤ n ∧ n ≤ 5) ∧ GameResolution.arg (BitVec.ofNat 8 n) = .ub) := by decide +kernel
  rcases at_byte (p := fun n v => ((1 ≤ n ∧ n ≤ 5) ∧ GameResolution.arg v ≠ .ub ∧
      GameResolution.arg v ≠ .panic) ∨ (¬ (1 ≤ n ∧ n ≤ 5) ∧ GameResolution.arg v = .ub)) h v
    with ⟨h, h1, h2⟩ | ⟨h, e⟩
  · cases e : GameResolution.arg v with
    | ok r => exact .inl ⟨h, _, rfl⟩
    | panic => exact absurd e h2
    | ub => exact absurd e h1
  · exact .inr ⟨h, .inl e⟩

theorem illegal_arg (v : U8) :
    (IllegalMoveKind.from_u8_unchecked v).Out (1 ≤ v.toNat ∧ v.toNat ≤ 7) := by
  have h : ∀ n < 256, ((1 ≤ n ∧ n ≤ 7) ∧ IllegalMoveKind.from_u8_unchecked (BitVec.ofNat 8 n) ≠ .ub ∧
      IllegalMoveKind.from_u8_unchecked (BitVec.ofNat 8 n) ≠ .panic) ∨
    (¬ (1 ≤ n ∧ n ≤ 7) ∧ IllegalMoveKind.from_u8_unchecked (BitVec.ofNat 8 n) = .ub) := by decide +kernel
  rcases at_byte (p := fun n v => ((1 ≤ n ∧ n ≤ 7) ∧ IllegalMoveKind.from_u8_unchecked v ≠ .ub ∧
      IllegalMoveKind.from_u8_unchecked v ≠ .panic) ∨
      (¬ (1 ≤ n ∧ n ≤ 7) ∧ IllegalMoveKind.from_u8_unchecked v = .ub)) h v with ⟨h, h1, h2⟩ | ⟨h, e⟩
  · cases e : IllegalMoveKind.from_u8_unchecked v with
    | ok r => exact .inl ⟨h, _, rfl⟩
    | panic => exact absurd e h2
    | ub => exact absurd e h1
  · exact .inr ⟨h, .inl e⟩

omit P in
theorem nonzero_nat {n : Nat} (v : BitVec n) : v = 0#n ↔ v.toNat = 0 := by
  constructor
  · rintro rfl; simp
  · intro h; exact BitVec.eq_of_toNat_eq (by simpa using h)

theorem square_arg0 (v : U8) :
    (v.toNat = 0 ∧ Square.arg v = .ub) ∨ (v.toNat ≠ 0 ∧ Square.arg v = .ok ⟨v⟩) := by
  unfold Square.arg nonzero_new_unchecked
  by_cases h : v = 0#8
  · rw [if_pos h]; exact .inl ⟨(nonzero_nat v).1 h, rfl⟩
  · rw [if_neg h]; exact .inr ⟨fun e => h ((nonzero_nat v).2 e), rfl⟩

theorem piece_arg0 (v : U8) :
    (v.toNat = 0 ∧ Piece.arg v = .ub) ∨ (v.toNat ≠ 0 ∧ Piece.arg v = .ok ⟨v⟩) := by
  unfold Piece.arg nonzero_new_unchecked
  by_cases h : v = 0#8
  · rw [if_pos h]; exact .inl ⟨(nonzero_nat v).1 h, rfl⟩
  · rw [if_neg h]; exact .inr ⟨fun e => h ((nonzero_nat v).2 e), rfl⟩

theorem move_arg0 (v : U16) :
    (v.toNat = 0 ∧ CompactMove.arg v = .ub) ∨ (v.toNat ≠ 0 ∧ CompactMove.arg v = .ok ⟨v⟩) := by
  unfold CompactMove.arg nonzero_new_unchecked
  by_cases h : v = 0#16
  · rw [if_pos h]; exact .inl ⟨(nonzero_nat v).1 h, rfl⟩
  · rw [if_neg h]; exact .inr ⟨fun e => h ((nonzero_nat v).2 e), rfl⟩

theorem sanity_bad {s : Square} (h : ¬ s.Valid) : s.sanity_check.Bad := by
  have hr : Square.inRange s.val = false := by
    unfold Square.Valid at h
    unfold Square.inRange
    simp only [Bool.and_eq_false_iff, decide_eq_false_iff_not]
    omega
  unfold Square.sanity_check debug_assert
  rw [hr]
  by_cases hd : Profile.debug = true
  · exact .inr ⟨by simp [hd], hd⟩
  · refine .inl ?_
    simp [hd]; rfl

/-- A function of a square that begins with the check of the square. -/
theorem square_call {β : Type} (v : U8) {f : Square → Res β}
    (hg : ∀ s : Square, s.Valid → ∃ r, f s = .ok r) (hb : ∀ s : Square, ¬ s.Valid → (f s).Bad) :
    (Square.arg v >>= f).Out (SquareByte v.toNat) := by
  rcases square_arg0 v with ⟨h0, e⟩ | ⟨h0, e⟩
  · rw [e]; exact .inr ⟨fun h => by unfold SquareByte at h; omega, .inl rfl⟩
  · rw [e, Res.bind_ok]
    by_cases h : SquareByte v.toNat
    · exact .inl ⟨h, hg ⟨v⟩ h⟩
    · exact .inr ⟨h, hb ⟨v⟩ h⟩

theorem square_call2 {β : Type} {E : Prop} (v : U8) {f : Square → Res β}
    (hg : ∀ s : Square, s.Valid → (f s).Out E) (hb : ∀ s : Square, ¬ s.Valid → (f s).Bad) :
    (Square.arg v >>= f).Out (SquareByte v.toNat ∧ E) := by
  rcases square_arg0 v with ⟨h0, e⟩ | ⟨h0, e⟩
  · rw [e]; exact .inr ⟨fun h => by have := h.1; unfold SquareByte at this; omega, .inl rfl⟩
  · rw [e, Res.bind_ok]
    by_cases h : SquareByte v.toNat
    · rcases hg ⟨v⟩ h with ⟨hE, h'⟩ | ⟨hE, h'⟩
      · exact .inl ⟨⟨h, hE⟩, h'⟩
      · exact .inr ⟨fun h => hE h.2, h'⟩
    · exact .inr ⟨fun x => h x.1, hb ⟨v⟩ h⟩

theorem index_bad {s : Square} (h : ¬ s.Valid) : s.index.Bad := (sanity_bad h).bind _
theorem file_bad {s : Square} (h : ¬ s.Valid) : s.file.Bad := (sanity_bad h).bind _
theorem rank_bad {s : Square} (h : ¬ s.Valid) : s.rank.Bad := (sanity_bad h).bind _
theorem shift_bad {s : Square} (h : ¬ s.Valid) (a b : I8) : (s.shift a b).Bad := (sanity_bad h).bind _
theorem array_index_bad {s : Square} (h : ¬ s.Valid) : s.array_index.Bad := (sanity_bad h).bind _
theorem single_bad {s : Square} (h : ¬ s.Valid) : (Bitboard.single s).Bad := (array_index_bad h).bind _
theorem contains_bad {s : Square} (h : ¬ s.Valid) (b : Bitboard) : (b.contains s).Bad :=
  (index_bad h).bind _
theorem piece_at_bad {s : Square} (h : ¬ s.Valid) (p : PartialPosition) :
    (p.PartialPosition_piece_at s).Bad := (index_bad h).bind _

omit P in
private theorem flip_table : ∀ d : Build, ∀ n < 256,
    ((1 ≤ n ∧ n ≤ 81) ∧ @Square.flip ⟨d⟩ ⟨BitVec.ofNat 8 n⟩ = .ok ⟨BitVec.ofNat 8 (82 - n)⟩) ∨
      (¬ (1 ≤ n ∧ n ≤ 81) ∧ (@Square.flip ⟨d⟩ ⟨BitVec.ofNat 8 n⟩ = .ub ∨
        (@Square.flip ⟨d⟩ ⟨BitVec.ofNat 8 n⟩ = .panic ∧ d.debug = true))) := by decide +kernel

theorem flip_out (s : Square) : s.flip.Out s.Valid := by
  have := profile_ind (motive := fun P => ∀ n < 256,
    ((1 ≤ n ∧ n ≤ 81) ∧ @Square.flip P ⟨BitVec.ofNat 8 n⟩ = .ok ⟨BitVec.ofNat 8 (82 - n)⟩) ∨
      (¬ (1 ≤ n ∧ n ≤ 81) ∧ (@Square.flip P ⟨BitVec.ofNat 8 n⟩ = .ub ∨
        (@Square.flip P ⟨BitVec.ofNat 8 n⟩ = .panic ∧ P.build.debug = true)))) flip_table P s.val.toNat s.val.isLt
  simp only [BitVec.ofNat_toNat, BitVec.setWidth_eq] at this
  rcases this with ⟨h, e⟩ | ⟨h, e⟩
  · exact .inl ⟨h, _, e⟩
  · exact .inr ⟨h, e⟩

theorem parts_out (x : Piece) : x.to_parts.Out (LoosePieceByte x.val.toNat) := by
  have h : ∀ n < 256, ((1 ≤ n % 16 ∧ n % 16 ≤ 14) ∧ ∃ k c, Piece.to_parts ⟨BitVec.ofNat 8 n⟩ = .ok (k, c)) ∨
    (¬ (1 ≤ n % 16 ∧ n % 16 ≤ 14) ∧ Piece.to_parts ⟨BitVec.ofNat 8 n⟩ = .ub) := by decide +kernel
  rcases at_byte (p := fun n v => ((1 ≤ n % 16 ∧ n % 16 ≤ 14) ∧ ∃ k c, Piece.to_parts ⟨v⟩ = .ok (k, c)) ∨
    (¬ (1 ≤ n % 16 ∧ n % 16 ≤ 14) ∧ Piece.to_parts ⟨v⟩ = .ub)) h x.val with ⟨h, k, c, e⟩ | ⟨h, e⟩
  · exact .inl ⟨h, _, e⟩
  · exact .inr ⟨h, .inl e⟩

/-- A function of a piece that begins with taking it apart. -/
theorem piece_call {β : Type} (v : U8) {f : PieceKind × Color → Res β}
    (hg : ∀ kc, ∃ r, f kc = .ok r) {g : Piece → Res β} (e : ∀ x, g x = x.to_parts >>= f) :
    (Piece.arg v >>= g).Out (LoosePieceByte v.toNat) := by
  rcases piece_arg0 v with ⟨h0, h⟩ | ⟨h0, h⟩
  · rw [h]; exact .inr ⟨fun h => by unfold LoosePieceByte KindByte at h; omega, .inl rfl⟩
  · rw [h, Res.bind_ok, e]
    exact (parts_out ⟨v⟩).arg fun kc _ => hg kc

/-! ### Moves -/

omit P in
theorem low7 (v : U16) : (cast 8 (v &&& 127) : U8).toNat = v.toNat % 128 := by
  simp only [cast, BitVec.toNat_setWidth, u16_and127]; omega

omit P in
theorem high7 (v : U16) : (cast 8 ((v >>> 8) &&& 127) : U8).toNat = v.toNat / 256 % 128 := by
  simp only [cast, BitVec.toNat_setWidth, u16_and127, u16_shr8]; omega

omit P in
theorem high8 (v : U16) : (cast 8 (v >>> 8) : U8).toNat = v.toNat / 256 := by
  have := v.isLt
  simp only [cast, BitVec.toNat_setWidth, u16_shr8]; omega

theorem unchecked_ub {v : U8} (h : ¬ SquareByte v.toNat) : Square.from_u8_unchecked v = .ub := by
  have hr : Square.inRange v = false := by
    unfold SquareByte at h
    unfold Square.inRange
    simp only [Bool.and_eq_false_iff, decide_eq_false_iff_not]
    omega
  simp [Square.from_u8_unchecked, hr, unreachable_unchecked]

theorem unchecked_out (v : U8) : (Square.from_u8_unchecked v).Out (SquareByte v.toNat) := by
  by_cases h : SquareByte v.toNat
  · exact .inl ⟨h, _, Square.from_u8_unchecked_ok h⟩
  · exact .inr ⟨h, .inl (unchecked_ub h)⟩

theorem to_out (c : CompactMove) : c.to.Out (SquareByte (c.val.toNat % 128)) := by
  unfold CompactMove.to
  rw [← low7]; exact unchecked_out _

theorem src_out (c : CompactMove) :
    c.src.Out (c.val.toNat / 128 % 2 = 1 ∨ SquareByte (c.val.toNat / 256 % 128)) := by
  unfold CompactMove.src
  rw [CompactMove.is_drop_eq]
  by_cases h : c.val.toNat / 128 % 2 = 1
  · simp only [h, decide_true, if_true]; exact .inl ⟨.inl trivial, _, rfl⟩
  · simp only [h, decide_false, Bool.false_eq_true, if_false, false_or]
    rw [← high7]
    exact (unchecked_out _).arg fun a _ => ⟨_, rfl⟩

/-! ### Stray bits -/

omit P in
theorem getLsbD_rawBit (b : Bitboard) (i : Nat) : b.to_u128.getLsbD i = b.rawBit i := by
  rw [Bitboard.getLsbD_to_u128]; rfl

omit P in
theorem no_bits {b : Bitboard} (h : ∀ i < 128, b.rawBit i = false) : b.to_u128 = 0#128 := by
  apply BitVec.eq_of_getLsbD_eq
  intro i hi
  rw [getLsbD_rawBit, h i hi]; simp

omit P in
theorem Bitboard.FirstBit.ne {b : Bitboard} {i : Nat} (h : b.FirstBit i) : b.to_u128 ≠ 0#128 := by
  intro e
  have := getLsbD_rawBit b i
  rw [e, h.2.1] at this
  simp at this

omit P in
theorem Bitboard.FirstBit.unique {b : Bitboard} {i j : Nat} (h : b.FirstBit i) (h' : b.FirstBit j) : i = j := by
  rcases Nat.lt_trichotomy i j with l | l | l
  · have := h'.2.2 i l; rw [h.2.1] at this; cases this
  · exact l
  · have := h.2.2 j l; rw [h'.2.1] at this; cases this

omit P in
theorem Bitboard.FirstBit.zeros {b : Bitboard} {i : Nat} (h : b.FirstBit i) :
    trailing_zeros b.to_u128 = BitVec.ofNat 32 i := by
  obtain ⟨p, h1, h2, h3, h4⟩ := Bitboard.trailing_zeros_spec h.ne
  have : b.FirstBit p := ⟨h1, by rw [← getLsbD_rawBit]; exact h3, fun j hj => by
    rw [← getLsbD_rawBit]; exact h4 j hj⟩
  rw [h2, this.unique h]

omit P in
theorem first_or (b : Bitboard) : (∀ i < 128, b.rawBit i = false) ∨ ∃ i, b.FirstBit i := by
  by_cases h : b.to_u128 = 0#128
  · left
    intro i _
    rw [← getLsbD_rawBit, h]; simp
  · obtain ⟨p, h1, h2, h3, h4⟩ := Bitboard.trailing_zeros_spec h
    exact .inr ⟨p, h1, by rw [← getLsbD_rawBit]; exact h3, fun j hj => by
      rw [← getLsbD_rawBit]; exact h4 j hj⟩

/-- What `pop` leaves. -/
def popped (b : Bitboard) : Bitboard :=
  Bitboard.from_u128_unchecked (b.to_u128 &&& (b.to_u128 - 1))

omit P in
theorem popped_bit {b : Bitboard} {i : Nat} (h : b.FirstBit i) (j : Nat) (hj : j < 128) :
    (popped b).rawBit j = (b.rawBit j && decide (j ≠ i)) := by
  have hc := bv_clear_low (x := b.to_u128) (p := i) (by rw [getLsbD_rawBit]; exact h.2.1)
    (fun j hj => by rw [getLsbD_rawBit]; exact h.2.2 j hj)
  have e : (popped b).rawBit j = (b.to_u128 &&& (b.to_u128 - 1)).getLsbD j := by
    rw [← getLsbD_rawBit, Bitboard.getLsbD_to_u128]
    by_cases h : j < 64
    · rw [if_pos h, popped, Bitboard.w0_from_u128]; simp [h]
    · rw [if_neg h, popped, Bitboard.w1_from_u128, show 64 + (j - 64) = j by omega]
      simp [show j - 64 < 64 by omega]
  rw [e, hc, getLsbD_rawBit]

/-- The square `pop` computes before it checks it, and the rest of `pop`. -/
theorem pop_first {b : Bitboard} {i : Nat} (h : b.FirstBit i) :
    b.pop = (do
      let s ← Square.from_u8_unchecked (BitVec.ofNat 8 (if i < 63 then i + 1 else i))
      debug_assert (b.contains s)
      return (popped b, some s)) := by
  have hi := h.1
  have hpos : (trailing_zeros b.to_u128).toNat = i := by
    rw [h.zeros]; simp only [BitVec.toNat_ofNat]; omega
  have hc8 : (cast 8 (trailing_zeros b.to_u128) : U8) = BitVec.ofNat 8 i := by
    apply BitVec.eq_of_toNat_eq
    simp only [cast, BitVec.toNat_setWidth, hpos, BitVec.toNat_ofNat]
  have hz : ¬ b.to_u128 = 0 := h.ne
  simp only [Bitboard.pop, hz, if_false, hpos, hc8, popped]
  by_cases h63 : i < 63
  · have e : BitVec.ofNat 8 i + 1 = BitVec.ofNat 8 (i + 1) := by
      simp [BitVec.ofNat_add]
    simp only [if_pos h63]
    rw [cadd_ok (by simp only [BitVec.ofNat_eq_ofNat, BitVec.toNat_ofNat]; omega), Res.bind_ok, e]
  · simp only [if_neg h63]

/-- C93: `pop` on any two words, by the first bit set.  Nothing set: nothing happens.  One of the
81 bits: its square, and the bit is cleared.  The unused top bit of the first word: a debug
build panics, a release build hands out square 63 (7i) although it is not in the set, and clears
the bit.  A bit above: undefined behaviour. -/
theorem C93_pop (b : Bitboard) :
    ((∀ i < 128, b.rawBit i = false) → Bitboard_pop b = .ok (b, ⟨0⟩)) ∧
    ∀ i, b.FirstBit i →
      (82 ≤ i → Bitboard_pop b = .ub) ∧
      (i = 63 → Profile.debug = true → Bitboard_pop b = .panic) ∧
      ((i < 63 ∨ (i = 63 ∧ Profile.debug = false) ∨ (64 ≤ i ∧ i < 82)) →
        ∃ b' s, Bitboard_pop b = .ok (b', s) ∧ s.val.toNat = (if i < 63 then i + 1 else i) ∧
          ∀ j < 128, b'.rawBit j = (b.rawBit j && decide (j ≠ i))) := by
  constructor
  · intro h
    simp [Bitboard_pop, Bitboard.pop, no_bits h, OptionSquare.ofOption]
  · intro i h
    have hi := h.1
    unfold Bitboard_pop
    rw [pop_first h]
    have hn : ∀ n, n < 128 → (BitVec.ofNat 8 n).toNat = n := by
      intro n hn; simp only [BitVec.toNat_ofNat]; omega
    refine ⟨?_, ?_, ?_⟩
    · intro h82
      rw [unchecked_ub (by rw [if_neg (by omega), hn i hi]; unfold SquareByte; omega)]; rfl
    · rintro rfl hd
      have hv : (⟨BitVec.ofNat 8 63⟩ : Square).Valid := by decide
      simp only [if_neg (show ¬ 63 < 63 by omega), Square.from_u8_unchecked_ok hv, Res.bind_ok,
        Bitboard.contains_ok b hv]
      have : b.bit (Square.idx0 ⟨BitVec.ofNat 8 63⟩) = false := by
        have := h.2.2 62 (by omega)
        exact this
      rw [this]
      unfold debug_assert
      rw [if_pos hd]; rfl
    · intro hc
      have hv : (⟨BitVec.ofNat 8 (if i < 63 then i + 1 else i)⟩ : Square).Valid := by
        unfold Square.Valid
        simp only
        split
        · rw [hn _ (by omega)]; omega
        · rw [hn _ (by omega)]; omega
      have hx : (Square.idx0 ⟨BitVec.ofNat 8 (if i < 63 then i + 1 else i)⟩) = if i < 63 then i else i - 1 := by
        unfold Square.idx0
        simp only
        split
        · rw [hn _ (by omega)]; omega
        · rw [hn _ (by omega)]
      refine ⟨popped b, ⟨BitVec.ofNat 8 (if i < 63 then i + 1 else i)⟩, ?_, ?_, popped_bit h⟩
      · simp only [Square.from_u8_unchecked_ok hv, Res.bind_ok, Bitboard.contains_ok b hv, hx]
        by_cases h63 : i = 63
        · have hd : Profile.debug = false := by
            rcases hc with h | ⟨_, h⟩ | h
            · omega
            · exact h
            · omega
          unfold debug_assert
          rw [hd]
          simp [OptionSquare.ofOption]
        · have : b.bit (if i < 63 then i else i - 1) = true := by
            have := h.2.1
            unfold Bitboard.rawBit at this
            unfold Bitboard.bit
            by_cases hl : i < 63
            · simp only [if_pos hl]
              rw [if_pos (by omega)] at this; exact this
            · simp only [if_neg hl]
              rw [if_neg (by omega)] at this
              rw [if_neg (by omega), show i - 1 - 63 = i - 64 by omega]; exact this
          rw [this, debug_assert_true]
          simp [OptionSquare.ofOption]
      · show (BitVec.ofNat 8 (if i < 63 then i + 1 else i)).toNat = _
        split
        · rw [hn _ (by omega)]
        · rw [hn _ (by omega)]

/-! ### Tables for functions of one byte -/

/-- Defined exactly if `D`, and then with an answer satisfying `A`. -/
def Res.Ans {α : Type} (D : Prop) (A : α → Prop) (x : Res α) : Prop :=
  (D ∧ ∃ r, x = .ok r ∧ A r) ∨ (¬ D ∧ x.Bad)

theorem Res.Ans.bad {α β : Type} {D : Prop} {A : β → Prop} {x : Res α} {f : α → Res β}
    (h : x.Out D) (hf : ∀ a, x = .ok a → ∃ r, f a = .ok r ∧ A r) : (x >>= f).Ans D A := by
  rcases h with ⟨hD, r, e⟩ | ⟨hD, hb⟩
  · exact .inl ⟨hD, by rw [e]; exact hf r e⟩
  · exact .inr ⟨hD, hb.bind f⟩

theorem Res.Ans.pure {α : Type} {D : Prop} {A : α → Prop} {a : α} (hD : D) (h : A a) : Res.Ans D A (.ok a) :=
  .inl ⟨hD, a, rfl, h⟩

theorem byte_ans {f : Profile → U8 → Res (List Nat)} {D : Nat → Prop} {a : Nat → List Nat}
    (h : ∀ d : Build, ∀ n < 256, (D n ∧ f ⟨d⟩ (BitVec.ofNat 8 n) = .ok (a n)) ∨
      (¬ D n ∧ (f ⟨d⟩ (BitVec.ofNat 8 n) = .ub ∨
        (f ⟨d⟩ (BitVec.ofNat 8 n) = .panic ∧ d.debug = true)))) (v : U8) :
    (f P v).Ans (D v.toNat) (· = a v.toNat) := by
  have := profile_ind (motive := fun P => ∀ n < 256, (D n ∧ f P (BitVec.ofNat 8 n) = .ok (a n)) ∨
      (¬ D n ∧ (f P (BitVec.ofNat 8 n) = .ub ∨
        (f P (BitVec.ofNat 8 n) = .panic ∧ P.build.debug = true)))) h P v.toNat v.isLt
  rw [BitVec.ofNat_toNat, BitVec.setWidth_eq] at this
  rcases this with ⟨h, e⟩ | h
  · exact .inl ⟨h, _, e, rfl⟩
  · exact .inr h

section
open CCall

theorem call_Color_flip (v : U8) : (exec (.Color_flip v)).Ans (ColorByte v.toNat) (· = [3 - v.toNat]) :=
  byte_ans (f := fun P v => @exec P (.Color_flip v)) (a := fun n => [3 - n]) (by decide +kernel) v
theorem call_GR (v : U8) : (exec (.GameResolution_from_u8_unchecked v)).Ans (1 ≤ v.toNat ∧ v.toNat ≤ 5) (· = [v.toNat]) :=
  byte_ans (f := fun P v => @exec P (.GameResolution_from_u8_unchecked v)) (D := fun n => 1 ≤ n ∧ n ≤ 5)
    (a := fun n => [n]) (by decide +kernel) v
theorem call_IM (v : U8) : (exec (.IllegalMoveKind_from_u8_unchecked v)).Ans (1 ≤ v.toNat ∧ v.toNat ≤ 7) (· = [v.toNat]) :=
  byte_ans (f := fun P v => @exec P (.IllegalMoveKind_from_u8_unchecked v)) (D := fun n => 1 ≤ n ∧ n ≤ 7)
    (a := fun n => [n]) (by decide +kernel) v
theorem call_handPiece (v : U8) : (exec (.Hand_is_hand_piece v)).Ans (KindByte v.toNat)
    (· = [if v.toNat ≤ 7 then 1 else 0]) :=
  byte_ans (f := fun P v => @exec P (.Hand_is_hand_piece v)) (a := fun n => [if n ≤ 7 then 1 else 0]) (by decide +kernel) v
theorem call_kind (v : U8) : (exec (.PieceKind_from_u8 v)).Ans True
    (· = [if KindByte v.toNat then v.toNat else 0]) :=
  byte_ans (f := fun P v => @exec P (.PieceKind_from_u8 v)) (D := fun _ => True)
    (a := fun n => [if KindByte n then n else 0]) (by decide +kernel) v
theorem call_kindU (v : U8) : (exec (.PieceKind_from_u8_unchecked v)).Ans (KindByte v.toNat) (· = [v.toNat]) :=
  byte_ans (f := fun P v => @exec P (.PieceKind_from_u8_unchecked v)) (a := fun n => [n]) (by decide +kernel) v
theorem call_kindP (v : U8) : (exec (.PieceKind_promote v)).Ans (KindByte v.toNat) (· = [promoteCode v.toNat]) :=
  byte_ans (f := fun P v => @exec P (.PieceKind_promote v)) (a := fun n => [promoteCode n]) (by decide +kernel) v
theorem call_kindQ (v : U8) : (exec (.PieceKind_unpromote v)).Ans (KindByte v.toNat) (· = [unpromoteCode v.toNat]) :=
  byte_ans (f := fun P v => @exec P (.PieceKind_unpromote v)) (a := fun n => [unpromoteCode n]) (by decide +kernel) v
theorem call_pieceC (v : U8) : (exec (.Piece_color v)).Ans (LoosePieceByte v.toNat)
    (· = [if 16 ≤ v.toNat then 2 else 1]) :=
  byte_ans (f := fun P v => @exec P (.Piece_color v)) (D := LoosePieceByte) (a := fun n => [if 16 ≤ n then 2 else 1]) (by decide +kernel) v
theorem call_pieceK (v : U8) : (exec (.Piece_piece_kind v)).Ans (LoosePieceByte v.toNat)
    (· = [v.toNat % 16]) :=
  byte_ans (f := fun P v => @exec P (.Piece_piece_kind v)) (D := LoosePieceByte) (a := fun n => [n % 16]) (by decide +kernel) v
theorem call_pieceP (v : U8) : (exec (.Piece_promote v)).Ans (LoosePieceByte v.toNat)
    (· = [recode promoteCode v.toNat]) :=
  byte_ans (f := fun P v => @exec P (.Piece_promote v)) (D := LoosePieceByte)
    (a := fun n => [recode promoteCode n]) (by decide +kernel) v
theorem call_pieceQ (v : U8) : (exec (.Piece_unpromote v)).Ans (LoosePieceByte v.toNat)
    (· = [recode unpromoteCode v.toNat]) :=
  byte_ans (f := fun P v => @exec P (.Piece_unpromote v)) (D := LoosePieceByte)
    (a := fun n => [recode unpromoteCode n]) (by decide +kernel) v
theorem call_sqFile (v : U8) : (exec (.Square_file v)).Ans (SquareByte v.toNat) (· = [(v.toNat - 1) / 9 + 1]) :=
  byte_ans (f := fun P v => @exec P (.Square_file v)) (a := fun n => [(n - 1) / 9 + 1]) (by decide +kernel) v
theorem call_sqRank (v : U8) : (exec (.Square_rank v)).Ans (SquareByte v.toNat) (· = [(v.toNat - 1) % 9 + 1]) :=
  byte_ans (f := fun P v => @exec P (.Square_rank v)) (a := fun n => [(n - 1) % 9 + 1]) (by decide +kernel) v
theorem call_sqIndex (v : U8) : (exec (.Square_index v)).Ans (SquareByte v.toNat) (· = [v.toNat]) :=
  byte_ans (f := fun P v => @exec P (.Square_index v)) (a := fun n => [n]) (by decide +kernel) v
theorem call_sqFlip (v : U8) : (exec (.Square_flip v)).Ans (SquareByte v.toNat) (· = [82 - v.toNat]) :=
  byte_ans (f := fun P v => @exec P (.Square_flip v)) (a := fun n => [82 - n]) (by decide +kernel) v
theorem call_sqU (v : U8) : (exec (.Square_from_u8_unchecked v)).Ans (SquareByte v.toNat) (· = [v.toNat]) :=
  byte_ans (f := fun P v => @exec P (.Square_from_u8_unchecked v)) (a := fun n => [n]) (by decide +kernel) v
theorem call_sqF (v : U8) : (exec (.Square_from_u8 v)).Ans True
    (· = [if SquareByte v.toNat then v.toNat else 0]) :=
  byte_ans (f := fun P v => @exec P (.Square_from_u8 v)) (D := fun _ => True)
    (a := fun n => [if SquareByte n then n else 0]) (by decide +kernel) v
theorem call_relF1 (v : U8) : (exec (.Square_relative_file v 1)).Ans (SquareByte v.toNat) (· = [(v.toNat - 1) / 9 + 1]) :=
  byte_ans (f := fun P v => @exec P (.Square_relative_file v 1)) (a := fun n => [(n - 1) / 9 + 1]) (by decide +kernel) v
theorem call_relF2 (v : U8) : (exec (.Square_relative_file v 2)).Ans (SquareByte v.toNat) (· = [9 - (v.toNat - 1) / 9]) :=
  byte_ans (f := fun P v => @exec P (.Square_relative_file v 2)) (a := fun n => [9 - (n - 1) / 9]) (by decide +kernel) v
theorem call_relR1 (v : U8) : (exec (.Square_relative_rank v 1)).Ans (SquareByte v.toNat) (· = [(v.toNat - 1) % 9 + 1]) :=
  byte_ans (f := fun P v => @exec P (.Square_relative_rank v 1)) (a := fun n => [(n - 1) % 9 + 1]) (by decide +kernel) v
theorem call_relR2 (v : U8) : (exec (.Square_relative_rank v 2)).Ans (SquareByte v.toNat) (· = [9 - (v.toNat - 1) % 9]) :=
  byte_ans (f := fun P v => @exec P (.Square_relative_rank v 2)) (a := fun n => [9 - (n - 1) % 9]) (by decide +kernel) v
theorem call_new1 (v : U8) : (exec (.Piece_new v 1)).Ans (KindByte v.toNat) (· = [v.toNat]) :=
  byte_ans (f := fun P v => @exec P (.Piece_new v 1)) (a := fun n => [n]) (by decide +kernel) v
theorem call_new2 (v : U8) : (exec (.Piece_new v 2)).Ans (KindByte v.toNat) (· = [v.toNat + 16]) :=
  byte_ans (f := fun P v => @exec P (.Piece_new v 2)) (a := fun n => [n + 16]) (by decide +kernel) v

end

end ShogiCore
