import Verif.Spec.Bitboard
import Verif.Lemmas.Square

namespace ShogiCore
namespace Bitboard

/-- Bit of the square with array index `i` (63 squares in the first word). -/
def bit (b : Bitboard) (i : Nat) : Bool :=
  if i < 63 then b.w0.getLsbD i else b.w1.getLsbD (i - 63)

theorem ext' {a b : Bitboard} (h0 : a.w0 = b.w0) (h1 : a.w1 = b.w1) : a = b := by
  cases a; cases b; simp_all

theorem canonical_w0 {b : Bitboard} (h : b.Canonical) {i : Nat} (hi : 63 ≤ i) :
    b.w0.getLsbD i = false := by
  rw [BitVec.getLsbD]; apply Nat.testBit_lt_two_pow
  exact Nat.lt_of_lt_of_le h.1 (Nat.pow_le_pow_right (by decide) hi)

theorem canonical_w1 {b : Bitboard} (h : b.Canonical) {i : Nat} (hi : 18 ≤ i) :
    b.w1.getLsbD i = false := by
  rw [BitVec.getLsbD]; apply Nat.testBit_lt_two_pow
  exact Nat.lt_of_lt_of_le h.2 (Nat.pow_le_pow_right (by decide) hi)

theorem canonical_of {b : Bitboard} (h0 : ∀ i, 63 ≤ i → i < 64 → b.w0.getLsbD i = false)
    (h1 : ∀ i, 18 ≤ i → i < 64 → b.w1.getLsbD i = false) : b.Canonical := by
  refine ⟨?_, ?_⟩
  · apply Nat.lt_pow_two_of_testBit
    intro i hi
    by_cases h : i < 64
    · exact h0 i hi h
    · exact BitVec.getLsbD_of_ge _ _ (by omega)
  · apply Nat.lt_pow_two_of_testBit
    intro i hi
    by_cases h : i < 64
    · exact h1 i hi h
    · exact BitVec.getLsbD_of_ge _ _ (by omega)

/-- Canonical bitboards with the same bits are equal. -/
theorem ext_bit {a b : Bitboard} (ha : a.Canonical) (hb : b.Canonical)
    (h : ∀ i < 81, a.bit i = b.bit i) : a = b := by
  apply ext'
  · apply BitVec.eq_of_getLsbD_eq
    intro i hi
    by_cases h63 : i < 63
    · simpa [bit, h63] using h i (by omega)
    · rw [canonical_w0 ha (by omega), canonical_w0 hb (by omega)]
  · apply BitVec.eq_of_getLsbD_eq
    intro i hi
    by_cases h18 : i < 18
    · have := h (i + 63) (by omega)
      simpa [bit, show ¬ i + 63 < 63 by omega] using this
    · rw [canonical_w1 ha (by omega), canonical_w1 hb (by omega)]

theorem and_shl_ne_zero (x : U64) {k : Nat} (hk : k < 64) :
    ((x &&& (1#64 <<< k)) != 0#64) = x.getLsbD k := by
  rw [← BitVec.twoPow_eq, BitVec.and_twoPow]
  cases x.getLsbD k
  · simp
  · have : BitVec.twoPow 64 k ≠ 0#64 := by
      intro h
      have := congrArg BitVec.toNat h
      rw [BitVec.toNat_twoPow, Nat.mod_eq_of_lt (Nat.pow_lt_pow_right (by decide) hk)] at this
      have : 0 < 2 ^ k := Nat.two_pow_pos k
      simp at *
    simp [this]

variable [P : Profile]

theorem contains_ok (b : Bitboard) {s : Square} (h : s.Valid) :
    b.contains s = .ok (b.bit s.idx0) := by
  have hv := h
  unfold Square.Valid at hv
  have h1 : csub s.val 1#8 = .ok (s.val - 1#8) := csub_ok (by simpa using hv.1)
  have h2 : (s.val - 1#8).toNat = s.idx0 := by
    rw [BitVec.toNat_sub, Square.idx0]; simp; omega
  have h81 := Square.idx0_lt h
  simp only [contains, Square.index_ok h, Res.bind_ok, h1, BitVec.ofNat_eq_ofNat, h2, bit]
  by_cases h63 : s.idx0 < 63
  · simp only [h63, if_true, cshl_ok (show s.idx0 < 64 by omega), Res.bind_ok, Res.pure_eq,
      and_shl_ne_zero _ (show s.idx0 < 64 by omega)]
  · have h3 : csub (s.val - 1#8) 63#8 = .ok (s.val - 1#8 - 63#8) := csub_ok (by rw [h2]; simp; omega)
    have h4 : (s.val - 1#8 - 63#8).toNat = s.idx0 - 63 := by
      rw [BitVec.toNat_sub, h2]; simp; omega
    simp only [h63, if_false, h3, Res.bind_ok, h4, cshl_ok (show s.idx0 - 63 < 64 by omega),
      Res.pure_eq, and_shl_ne_zero _ (show s.idx0 - 63 < 64 by omega)]

theorem mem_iff (b : Bitboard) {s : Square} (h : s.Valid) : b.Mem s ↔ b.bit s.idx0 = true := by
  rw [Mem, contains_ok b h]; simp

/-- The bitboard of one array index. -/
def one (i : Nat) : Bitboard :=
  if i < 63 then ⟨1#64 <<< i, 0⟩ else ⟨0, 1#64 <<< (i - 63)⟩

omit P in
theorem one_canonical {i : Nat} (h : i < 81) : (one i).Canonical := by
  revert i; decide +kernel

omit P in
theorem bit_one {i : Nat} (h : i < 81) (j : Nat) (hj : j < 81) : (one i).bit j = decide (i = j) := by
  revert i j; decide +kernel

theorem single_ok {s : Square} (h : s.Valid) : single s = .ok (one s.idx0) := by
  have h81 := Square.idx0_lt h
  have e : (BitVec.ofNat Profile.bits s.idx0).toNat = s.idx0 := usize_toNat (by omega)
  simp only [single, single_inlined, Square.array_index_ok h, Res.bind_ok, e, one]
  by_cases h63 : s.idx0 < 63
  · simp only [h63, if_true, cshl_ok (show s.idx0 < 64 by omega), Res.bind_ok, Res.pure_eq,
      BitVec.ofNat_eq_ofNat]
  · have e63 : (63#Profile.bits).toNat = 63 := usize_toNat (by decide)
    have h3 : csub (BitVec.ofNat Profile.bits s.idx0) 63#Profile.bits =
        .ok (BitVec.ofNat Profile.bits s.idx0 - 63#Profile.bits) :=
      csub_ok (by rw [e, e63]; omega)
    have h4 : (BitVec.ofNat Profile.bits s.idx0 - 63#Profile.bits).toNat = s.idx0 - 63 := by
      rw [BitVec.toNat_sub_of_le (by rw [BitVec.le_def, e, e63]; omega), e, e63]
    simp only [h63, if_false, BitVec.ofNat_eq_ofNat, h3, Res.bind_ok, h4,
      cshl_ok (show s.idx0 - 63 < 64 by omega), Res.pure_eq]

/-! ### Boolean operators -/

omit P in
theorem bit_empty (i : Nat) : empty.bit i = false := by simp [bit, empty]
omit P in
theorem bit_bitand (a b : Bitboard) (i : Nat) : (a.bitand b).bit i = (a.bit i && b.bit i) := by
  simp only [bit, bitand]; split <;> simp
omit P in
theorem bit_bitor (a b : Bitboard) (i : Nat) : (a.bitor b).bit i = (a.bit i || b.bit i) := by
  simp only [bit, bitor]; split <;> simp
omit P in
theorem bit_bitxor (a b : Bitboard) (i : Nat) : (a.bitxor b).bit i = (a.bit i ^^ b.bit i) := by
  simp only [bit, bitxor]; split <;> simp
omit P in
theorem bit_andnot (a b : Bitboard) {i : Nat} (h : i < 81) :
    (a.andnot b).bit i = (!a.bit i && b.bit i) := by
  simp only [bit, andnot]
  split
  · simp [show i < 64 by omega]
  · simp [show i - 63 < 64 by omega]
omit P in
theorem mask63 {i : Nat} : ((((1 : U64) <<< 63) - 1).getLsbD i) = decide (i < 63) := by
  by_cases h : i < 64
  · revert i; decide +kernel
  · rw [BitVec.getLsbD_of_ge _ _ (by omega)]; simp; omega
omit P in
theorem mask18 {i : Nat} : ((((1 : U64) <<< 18) - 1).getLsbD i) = decide (i < 18) := by
  by_cases h : i < 64
  · revert i; decide +kernel
  · rw [BitVec.getLsbD_of_ge _ _ (by omega)]; simp; omega
omit P in
theorem bit_not (a : Bitboard) {i : Nat} (h : i < 81) : a.not.bit i = !a.bit i := by
  simp only [bit, not]
  split
  · rename_i h63
    rw [BitVec.getLsbD_and, mask63, BitVec.getLsbD_not]
    simp [h63, show i < 64 by omega]
  · rename_i h63
    rw [BitVec.getLsbD_and, mask18, BitVec.getLsbD_not]
    simp [show i - 63 < 64 by omega, show i - 63 < 18 by omega]

omit P in
theorem empty_canonical : empty.Canonical := by decide
omit P in
theorem bitand_canonical {a b : Bitboard} (ha : a.Canonical) : (a.bitand b).Canonical := by
  apply canonical_of
  · intro i h _; simp [bitand, canonical_w0 ha h]
  · intro i h _; simp [bitand, canonical_w1 ha h]
omit P in
theorem bitor_canonical {a b : Bitboard} (ha : a.Canonical) (hb : b.Canonical) :
    (a.bitor b).Canonical := by
  apply canonical_of
  · intro i h _; simp [bitor, canonical_w0 ha h, canonical_w0 hb h]
  · intro i h _; simp [bitor, canonical_w1 ha h, canonical_w1 hb h]
omit P in
theorem bitxor_canonical {a b : Bitboard} (ha : a.Canonical) (hb : b.Canonical) :
    (a.bitxor b).Canonical := by
  apply canonical_of
  · intro i h _; simp [bitxor, canonical_w0 ha h, canonical_w0 hb h]
  · intro i h _; simp [bitxor, canonical_w1 ha h, canonical_w1 hb h]
omit P in
theorem andnot_canonical {a b : Bitboard} (hb : b.Canonical) : (a.andnot b).Canonical := by
  apply canonical_of
  · intro i h _; simp [andnot, canonical_w0 hb h]
  · intro i h _; simp [andnot, canonical_w1 hb h]
omit P in
theorem not_canonical (a : Bitboard) : a.not.Canonical := by
  apply canonical_of
  · intro i h _; simp only [not, BitVec.getLsbD_and, mask63]; simp; omega
  · intro i h _; simp only [not, BitVec.getLsbD_and, mask18]
    simp; omega

end Bitboard
end ShogiCore
