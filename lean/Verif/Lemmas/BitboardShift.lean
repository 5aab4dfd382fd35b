import Verif.Lemmas.Bitboard

namespace ShogiCore
namespace Bitboard

/-! ### flip -/

theorem bit_flip {b : Bitboard} (hb : b.Canonical) {i : Nat} (hi : i < 81) :
    b.flip.bit i = b.bit (80 - i) := by
  by_cases h : i < 63
  · simp only [bit, flip, h, if_true, reverse_bits, BitVec.getLsbD_reverse, BitVec.getMsbD_eq_getLsbD,
      BitVec.getLsbD_and, BitVec.getLsbD_or, BitVec.getLsbD_not, BitVec.getLsbD_ushiftRight,
      BitVec.getLsbD_shiftLeft]
    have e1 : (1 : U64).getLsbD (64 - 1 - i) = false := by
      have : 64 - 1 - i ≠ 0 := by omega
      simp only [BitVec.ofNat_eq_ofNat, BitVec.getLsbD_one]
      simp [this]
    simp only [show i < 64 by omega, e1, decide_true, Bool.true_and, Bool.not_false,
      show 64 - 1 - i < 64 by omega, Bool.and_true]
    by_cases h' : 80 - i < 63
    · rw [if_pos h']
      simp only [show 64 - 1 - i < 46 by omega, decide_true, Bool.not_true, Bool.false_and,
        Bool.or_false]
      congr 1; omega
    · rw [if_neg h', canonical_w0 hb (by omega)]
      simp only [show ¬ 64 - 1 - i < 46 by omega, decide_false, Bool.not_false, Bool.true_and,
        Bool.false_or]
      congr 1; omega
  · simp only [bit, flip, h, if_false, reverse_bits, BitVec.getLsbD_reverse,
      BitVec.getMsbD_eq_getLsbD, BitVec.getLsbD_shiftLeft, show 80 - i < 63 by omega, if_true,
      show i - 63 < 64 by omega, decide_true, Bool.true_and,
      show 64 - 1 - (i - 63) < 64 by omega, show ¬ 64 - 1 - (i - 63) < 46 by omega, decide_false,
      Bool.not_false]
    congr 1; omega

theorem flip_canonical (b : Bitboard) : b.flip.Canonical := by
  apply canonical_of
  · intro i h h'
    have : i = 63 := by omega
    subst this
    simp only [flip, reverse_bits, BitVec.getLsbD_reverse, BitVec.getMsbD_eq_getLsbD,
      BitVec.getLsbD_and, BitVec.getLsbD_not]
    simp
  · intro i h h'
    simp only [flip, reverse_bits, BitVec.getLsbD_reverse, BitVec.getMsbD_eq_getLsbD,
      BitVec.getLsbD_shiftLeft]
    simp; omega

variable [P : Profile]

/-! ### Shifts along ranks -/

omit P in
theorem u8_of_lt {d : U8} {n : Nat} (h : d.toNat < n) : ∃ k < n, d = BitVec.ofNat 8 k :=
  ⟨d.toNat, h, by simp⟩

/-- The mask used by `shift_down`. -/
def downMask (k : Nat) : U64 := 0x8040201008040200#64 - 0x8040201008040200#64 >>> (9 - k)
/-- The mask used by `shift_up`. -/
def upMask (k : Nat) : U64 := 0x40201008040201#64 <<< (9 - k) - 0x40201008040201#64

omit P in
theorem downMask_bit : ∀ k < 10, ∀ i < 64,
    (downMask k).getLsbD i = (decide (i < 63) && decide (k ≤ i % 9)) := by decide +kernel

omit P in
theorem upMask_bit : ∀ k < 10, ∀ i < 64,
    (upMask k).getLsbD i = (decide (i < 63) && decide (i % 9 + k < 9)) := by decide +kernel

theorem shift_down_ok (b : Bitboard) {k : Nat} (hk : k < 10) :
    b.shift_down (BitVec.ofNat 8 k) =
      .ok ⟨(b.w0 <<< k) &&& downMask k,
           cast 64 (((cast 32 b.w1 : U32) <<< k) &&& cast 32 (downMask k))⟩ := by
  have e : (BitVec.ofNat 8 k).toNat = k := by simp only [BitVec.toNat_ofNat]; omega
  have e9 : csub (9 : U8) (BitVec.ofNat 8 k) = .ok (9 - BitVec.ofNat 8 k) :=
    csub_ok (by rw [e]; simp; omega)
  have e9' : ((9 : U8) - BitVec.ofNat 8 k).toNat = 9 - k := by
    rw [BitVec.toNat_sub, e]; simp; omega
  have em : csub 0x8040201008040200#64 (0x8040201008040200#64 >>> (9 - k)) = .ok (downMask k) := by
    rw [csub_ok]; · rfl
    · rw [BitVec.toNat_ushiftRight]; exact Nat.shiftRight_le _ _
  simp only [shift_down, e, show k ≤ 9 by omega, decide_true, debug_assert_true, Res.bind_ok, e9, e9',
    cshr_ok (show 9 - k < 64 by omega), em, cshl_ok (show k < 64 by omega),
    cshl_ok (show k < 32 by omega), Res.pure_eq]

theorem shift_up_ok (b : Bitboard) {k : Nat} (hk : k < 10) :
    b.shift_up (BitVec.ofNat 8 k) =
      .ok ⟨(b.w0 >>> k) &&& upMask k,
           cast 64 (((cast 32 b.w1 : U32) >>> k) &&& cast 32 (upMask k))⟩ := by
  have e : (BitVec.ofNat 8 k).toNat = k := by simp only [BitVec.toNat_ofNat]; omega
  have e9 : csub (9 : U8) (BitVec.ofNat 8 k) = .ok (9 - BitVec.ofNat 8 k) :=
    csub_ok (by rw [e]; simp; omega)
  have e9' : ((9 : U8) - BitVec.ofNat 8 k).toNat = 9 - k := by
    rw [BitVec.toNat_sub, e]; simp; omega
  have em : ∀ k < 10, (0x40201008040201#64).toNat ≤ (0x40201008040201#64 <<< (9 - k)).toNat := by
    decide +kernel
  have em' : csub (0x40201008040201#64 <<< (9 - k)) 0x40201008040201#64 = .ok (upMask k) := by
    rw [csub_ok (em k hk)]; rfl
  simp only [shift_up, e, show k ≤ 9 by omega, decide_true, debug_assert_true, Res.bind_ok, e9, e9',
    cshl_ok (show 9 - k < 64 by omega), em', cshr_ok (show k < 64 by omega),
    cshr_ok (show k < 32 by omega), Res.pure_eq]

theorem shift_down_spec {b : Bitboard} (hb : b.Canonical) {k : Nat} (hk : k < 10) :
    ∃ b', b.shift_down (BitVec.ofNat 8 k) = .ok b' ∧ b'.Canonical ∧
      ∀ i < 81, b'.bit i = (decide (k ≤ i % 9) && b.bit (i - k)) := by
  refine ⟨_, shift_down_ok b hk, ?_, ?_⟩
  · apply canonical_of
    · intro i h h'
      simp only [BitVec.getLsbD_and, downMask_bit k hk i h']
      simp; omega
    · intro i h h'
      simp only [cast, BitVec.getLsbD_setWidth, BitVec.getLsbD_and, downMask_bit k hk i h',
        BitVec.getLsbD_shiftLeft]
      by_cases h1 : i < 32
      · by_cases h2 : i < 18 + k
        · have : ¬ k ≤ i % 9 := by omega
          simp [this]
        · rw [canonical_w1 hb (by omega)]; simp
      · simp [h1]
  · intro i hi
    simp only [bit]
    by_cases h : i < 63
    · simp only [h, if_true, BitVec.getLsbD_and, BitVec.getLsbD_shiftLeft,
        downMask_bit k hk i (by omega), show i < 64 by omega, show i - k < 63 by omega]
      by_cases h1 : k ≤ i % 9
      · have : ¬ i < k := by omega
        simp [h1, this]
      · simp [h1]
    · simp only [h, if_false, cast, BitVec.getLsbD_setWidth, BitVec.getLsbD_and,
        BitVec.getLsbD_shiftLeft, downMask_bit k hk (i - 63) (by omega),
        show i - 63 < 64 by omega, show i - 63 < 32 by omega, show i - 63 < 63 by omega]
      by_cases h1 : k ≤ i % 9
      · have h2 : k ≤ (i - 63) % 9 := by omega
        have h3 : ¬ i - 63 < k := by omega
        have h4 : ¬ i - k < 63 := by omega
        simp [h1, h2, h3, h4, show i - 63 - k < 32 by omega]
        congr 1; omega
      · have h2 : ¬ k ≤ (i - 63) % 9 := by omega
        simp [h1, h2]

theorem shift_up_spec {b : Bitboard} (hb : b.Canonical) {k : Nat} (hk : k < 10) :
    ∃ b', b.shift_up (BitVec.ofNat 8 k) = .ok b' ∧ b'.Canonical ∧
      ∀ i < 81, b'.bit i = (decide (i % 9 + k < 9) && b.bit (i + k)) := by
  refine ⟨_, shift_up_ok b hk, ?_, ?_⟩
  · apply canonical_of
    · intro i h h'
      simp only [BitVec.getLsbD_and, upMask_bit k hk i h']
      simp; omega
    · intro i h h'
      simp only [cast, BitVec.getLsbD_setWidth, BitVec.getLsbD_and, BitVec.getLsbD_ushiftRight]
      rw [canonical_w1 hb (by omega)]; simp
  · intro i hi
    simp only [bit]
    by_cases h : i < 63
    · simp only [h, if_true, BitVec.getLsbD_and, BitVec.getLsbD_ushiftRight,
        upMask_bit k hk i (by omega)]
      by_cases h1 : i % 9 + k < 9
      · simp [h1, show i + k < 63 by omega, Nat.add_comm k i]
      · simp [h1]
    · simp only [h, if_false, cast, BitVec.getLsbD_setWidth, BitVec.getLsbD_and,
        BitVec.getLsbD_ushiftRight, upMask_bit k hk (i - 63) (by omega),
        show i - 63 < 64 by omega, show i - 63 < 32 by omega, show i - 63 < 63 by omega]
      by_cases h1 : i % 9 + k < 9
      · have h2 : (i - 63) % 9 + k < 9 := by omega
        simp [h1, h2, show ¬ i + k < 63 by omega, show k + (i - 63) < 32 by omega]
        congr 1; omega
      · have h2 : ¬ (i - 63) % 9 + k < 9 := by omega
        simp [h1, h2]

/-! ### Shifts along files -/

omit P in
theorem mul9 {k : Nat} (h : k < 10) : (9 : U8) * BitVec.ofNat 8 k = BitVec.ofNat 8 (9 * k) := by
  revert k; decide +kernel
omit P in
theorem sub63 {k : Nat} (h : k < 8) :
    (63 : U8) - BitVec.ofNat 8 (9 * k) = BitVec.ofNat 8 (63 - 9 * k) := by
  revert k; decide +kernel
omit P in
theorem sub63' {k : Nat} (h : k < 10) (h' : 7 < k) :
    BitVec.ofNat 8 (9 * k) - (63 : U8) = BitVec.ofNat 8 (9 * k - 63) := by
  have : k = 8 ∨ k = 9 := by omega
  rcases this with rfl | rfl <;> decide
omit P in
theorem toNat8 {k : Nat} (h : k < 256) : (BitVec.ofNat 8 k).toNat = k := by
  simp only [BitVec.toNat_ofNat]; omega

theorem cmul9 {k : Nat} (h : k < 10) : cmul (9 : U8) (BitVec.ofNat 8 k) = .ok (BitVec.ofNat 8 (9 * k)) := by
  rw [cmul_ok, mul9 h]
  rw [toNat8 (by omega)]; simp; omega
theorem csub63 {k : Nat} (h : k < 8) :
    csub (63 : U8) (BitVec.ofNat 8 (9 * k)) = .ok (BitVec.ofNat 8 (63 - 9 * k)) := by
  rw [csub_ok, sub63 h]
  rw [toNat8 (by omega)]; simp; omega
theorem csub63' {k : Nat} (h : k < 10) (h' : 7 < k) :
    csub (BitVec.ofNat 8 (9 * k)) (63 : U8) = .ok (BitVec.ofNat 8 (9 * k - 63)) := by
  rw [csub_ok, sub63' h h']
  rw [toNat8 (by omega)]; simp; omega

theorem shift_left_ok (b : Bitboard) {k : Nat} (hk : k < 10) :
    b.shift_left (BitVec.ofNat 8 k) = .ok (
      if k ≤ 1 then ⟨(b.w0 <<< (9 * k)) &&& MASK0,
          ((b.w1 <<< (9 * k)) ||| (b.w0 >>> (63 - 9 * k))) &&& MASK1⟩
      else if k ≤ 7 then ⟨(b.w0 <<< (9 * k)) &&& MASK0, (b.w0 >>> (63 - 9 * k)) &&& MASK1⟩
      else ⟨0, (b.w0 <<< (9 * k - 63)) &&& MASK1⟩) := by
  have e := toNat8 (show k < 256 by omega)
  simp only [shift_left, e, show k ≤ 9 by omega, decide_true, debug_assert_true, Res.bind_ok,
    cmul9 hk, toNat8 (show 9 * k < 256 by omega)]
  by_cases h1 : k ≤ 1
  · simp only [h1, if_true, cshl_ok (show 9 * k < 64 by omega), Res.bind_ok, csub63 (show k < 8 by omega),
      toNat8 (show 63 - 9 * k < 256 by omega), cshr_ok (show 63 - 9 * k < 64 by omega), Res.pure_eq]
  · by_cases h7 : k ≤ 7
    · simp only [h1, h7, if_true, if_false, cshl_ok (show 9 * k < 64 by omega), Res.bind_ok,
        csub63 (show k < 8 by omega),
        toNat8 (show 63 - 9 * k < 256 by omega), cshr_ok (show 63 - 9 * k < 64 by omega), Res.pure_eq]
    · simp only [h1, h7, if_false, csub63' hk (show 7 < k by omega), Res.bind_ok,
        toNat8 (show 9 * k - 63 < 256 by omega), cshl_ok (show 9 * k - 63 < 64 by omega), Res.pure_eq]

theorem shift_right_ok (b : Bitboard) {k : Nat} (hk : k < 10) :
    b.shift_right (BitVec.ofNat 8 k) = .ok (
      if k ≤ 1 then ⟨(b.w0 >>> (9 * k)) ||| (b.w1 <<< (63 - 9 * k)), b.w1 >>> (9 * k)⟩
      else if k ≤ 7 then ⟨(b.w0 >>> (9 * k)) ||| (b.w1 <<< (63 - 9 * k)), 0⟩
      else ⟨b.w1 >>> (9 * k - 63), 0⟩) := by
  have e := toNat8 (show k < 256 by omega)
  simp only [shift_right, e, show k ≤ 9 by omega, decide_true, debug_assert_true, Res.bind_ok,
    cmul9 hk, toNat8 (show 9 * k < 256 by omega)]
  by_cases h1 : k ≤ 1
  · simp only [h1, if_true, cshr_ok (show 9 * k < 64 by omega), Res.bind_ok, csub63 (show k < 8 by omega),
      toNat8 (show 63 - 9 * k < 256 by omega), cshl_ok (show 63 - 9 * k < 64 by omega), Res.pure_eq]
  · by_cases h7 : k ≤ 7
    · simp only [h1, h7, if_true, if_false, cshr_ok (show 9 * k < 64 by omega), Res.bind_ok,
        csub63 (show k < 8 by omega),
        toNat8 (show 63 - 9 * k < 256 by omega), cshl_ok (show 63 - 9 * k < 64 by omega), Res.pure_eq]
    · simp only [h1, h7, if_false, csub63' hk (show 7 < k by omega), Res.bind_ok,
        toNat8 (show 9 * k - 63 < 256 by omega), cshr_ok (show 9 * k - 63 < 64 by omega), Res.pure_eq]

theorem shift_left_spec {b : Bitboard} (hb : b.Canonical) {k : Nat} (hk : k < 10) :
    ∃ b', b.shift_left (BitVec.ofNat 8 k) = .ok b' ∧ b'.Canonical ∧
      ∀ i < 81, b'.bit i = (decide (9 * k ≤ i) && b.bit (i - 9 * k)) := by
  refine ⟨_, shift_left_ok b hk, ?_, ?_⟩
  · apply canonical_of
    · intro i h h'
      split
      · simp only [MASK0, BitVec.getLsbD_and, mask63, show ¬ i < 63 by omega]; simp
      · split
        · simp only [MASK0, BitVec.getLsbD_and, mask63, show ¬ i < 63 by omega]; simp
        · simp
    · intro i h h'
      split
      · simp only [MASK1, BitVec.getLsbD_and, mask18, show ¬ i < 18 by omega]; simp
      · split
        · simp only [MASK1, BitVec.getLsbD_and, mask18, show ¬ i < 18 by omega]; simp
        · simp only [MASK1, BitVec.getLsbD_and, mask18, show ¬ i < 18 by omega]; simp
  · intro i hi
    by_cases h : i < 63
    · have h63 : i - 9 * k < 63 := by omega
      simp only [bit, h, h63, if_true]
      have main : ((b.w0 <<< (9 * k)) &&& MASK0).getLsbD i =
          (decide (9 * k ≤ i) && b.w0.getLsbD (i - 9 * k)) := by
        simp only [MASK0, BitVec.getLsbD_and, mask63, BitVec.getLsbD_shiftLeft, h,
          show i < 64 by omega]
        by_cases h' : 9 * k ≤ i
        · simp [h', show ¬ i < 9 * k by omega]
        · simp [h', show i < 9 * k by omega]
      split
      · exact main
      · split
        · exact main
        · simp [show ¬ 9 * k ≤ i by omega]
    · have h18 : i - 63 < 18 := by omega
      simp only [bit, h, if_false]
      split
      · rename_i h1
        simp only [MASK1, BitVec.getLsbD_and, mask18, BitVec.getLsbD_or, BitVec.getLsbD_shiftLeft,
          BitVec.getLsbD_ushiftRight, h18, show i - 63 < 64 by omega, show 9 * k ≤ i by omega,
          decide_true, Bool.and_true, Bool.true_and]
        by_cases h2 : i - 9 * k < 63
        · simp only [h2, if_true, show i - 63 < 9 * k by omega, decide_true, Bool.not_true,
            Bool.false_and, Bool.false_or]
          congr 1; omega
        · rw [canonical_w0 hb (show 63 ≤ 63 - 9 * k + (i - 63) by omega)]
          simp only [h2, if_false, show ¬ i - 63 < 9 * k by omega, decide_false, Bool.not_false,
            Bool.true_and, Bool.or_false]
          congr 1; omega
      · split
        · simp only [MASK1, BitVec.getLsbD_and, mask18, BitVec.getLsbD_ushiftRight, h18,
            show 9 * k ≤ i by omega, decide_true, Bool.and_true, Bool.true_and,
            show i - 9 * k < 63 by omega, if_true]
          congr 1; omega
        · simp only [MASK1, BitVec.getLsbD_and, mask18, BitVec.getLsbD_shiftLeft, h18,
            show i - 63 < 64 by omega, decide_true, Bool.and_true, Bool.true_and,
            show i - 9 * k < 63 by omega, if_true]
          by_cases h2 : 9 * k ≤ i
          · simp only [h2, show ¬ i - 63 < 9 * k - 63 by omega, decide_true, decide_false,
              Bool.not_false, Bool.true_and]
            congr 1; omega
          · simp [h2, show i - 63 < 9 * k - 63 by omega]

theorem shift_right_spec {b : Bitboard} (hb : b.Canonical) {k : Nat} (hk : k < 10) :
    ∃ b', b.shift_right (BitVec.ofNat 8 k) = .ok b' ∧
      (b'.Canonical ↔ ¬ (k ≤ 1 ∧ b.bit (63 + 9 * k) = true)) ∧
      ∀ i < 81, b'.bit i = (decide (i + 9 * k < 81) && b.bit (i + 9 * k)) := by
  have hw1 : ∀ i, 18 ≤ i → b.w1.getLsbD i = false := fun i h => canonical_w1 hb h
  have hw0 : ∀ i, 63 ≤ i → b.w0.getLsbD i = false := fun i h => canonical_w0 hb h
  refine ⟨_, shift_right_ok b hk, ?_, ?_⟩
  · by_cases h1 : k ≤ 1
    · simp only [h1, if_true, true_and, bit, show ¬ 63 + 9 * k < 63 by omega, if_false,
        Nat.add_sub_cancel_left]
      have key : ((b.w0 >>> (9 * k)) ||| (b.w1 <<< (63 - 9 * k))).getLsbD 63 =
          b.w1.getLsbD (9 * k) := by
        rw [BitVec.getLsbD_or, BitVec.getLsbD_ushiftRight, BitVec.getLsbD_shiftLeft,
          hw0 _ (by omega)]
        simp only [decide_true, show (63 < 64) = True from eq_true (by decide),
          show ¬ 63 < 63 - 9 * k by omega, decide_false, Bool.not_false, Bool.true_and,
          Bool.false_or]
        congr 1; omega
      constructor
      · intro hc
        have := canonical_w0 hc (Nat.le_refl 63)
        rw [key] at this
        simp [this]
      · intro hn
        apply canonical_of
        · intro i h h'
          have : i = 63 := by omega
          subst this
          rw [key]; simpa using hn
        · intro i h h'
          simp only [BitVec.getLsbD_ushiftRight]
          exact hw1 _ (by omega)
    · simp only [h1, if_false, false_and, not_false_eq_true, iff_true]
      by_cases h7 : k ≤ 7
      · simp only [h7, if_true]
        apply canonical_of
        · intro i h h'
          rw [BitVec.getLsbD_or, BitVec.getLsbD_ushiftRight, BitVec.getLsbD_shiftLeft,
            hw0 _ (by omega), hw1 _ (by omega)]
          simp
        · intro i _ _; simp
      · simp only [h7, if_false]
        apply canonical_of
        · intro i h h'
          rw [BitVec.getLsbD_ushiftRight, hw1 _ (by omega)]
        · intro i _ _; simp
  · intro i hi
    by_cases h : i < 63
    · have main : k ≤ 7 → ((b.w0 >>> (9 * k)) ||| (b.w1 <<< (63 - 9 * k))).getLsbD i =
          (decide (i + 9 * k < 81) && b.bit (i + 9 * k)) := by
        intro h7
        simp only [bit, BitVec.getLsbD_or, BitVec.getLsbD_ushiftRight, BitVec.getLsbD_shiftLeft,
          show i < 64 by omega, decide_true, Bool.true_and]
        by_cases h2 : i + 9 * k < 63
        · simp only [h2, if_true, show i < 63 - 9 * k by omega, decide_true, Bool.not_true,
            Bool.false_and, Bool.or_false, show i + 9 * k < 81 by omega, Bool.true_and]
          rw [Nat.add_comm]
        · rw [hw0 _ (by omega)]
          simp only [h2, if_false, show ¬ i < 63 - 9 * k by omega, decide_false, Bool.not_false,
            Bool.true_and, Bool.false_or]
          by_cases h3 : i + 9 * k < 81
          · simp only [h3, decide_true, Bool.true_and]
            congr 1; omega
          · rw [hw1 _ (by omega)]; simp [h3]
      rw [bit, if_pos h]
      split
      · exact main (by omega)
      · split
        · exact main (by omega)
        · simp only [bit, BitVec.getLsbD_ushiftRight, show ¬ i + 9 * k < 63 by omega, if_false]
          by_cases h3 : i + 9 * k < 81
          · simp only [h3, decide_true, Bool.true_and]
            congr 1; omega
          · rw [hw1 _ (by omega)]; simp [h3]
    · rw [bit, if_neg h]
      split
      · simp only [bit, BitVec.getLsbD_ushiftRight, show ¬ i + 9 * k < 63 by omega, if_false]
        by_cases h3 : i + 9 * k < 81
        · simp only [h3, decide_true, Bool.true_and]
          congr 1; omega
        · rw [hw1 _ (by omega)]; simp [h3]
      · split
        · simp [show ¬ i + 9 * k < 81 by omega]
        · simp [show ¬ i + 9 * k < 81 by omega]

/-! ### Files -/

omit P in
theorem file_k {f : Nat} (h : f < 9) : ∃ k, (f < 7 ∧ k = 9 * f) ∨ (7 ≤ f ∧ k = 9 * f - 63) := by
  by_cases h' : f < 7
  · exact ⟨_, .inl ⟨h', rfl⟩⟩
  · exact ⟨_, .inr ⟨by omega, rfl⟩⟩

omit P in
private theorem files_arith : ∀ f < 9,
    ((f < 7 → (BitVec.ofNat 8 (f + 1) - 1#8) * 9#8 = BitVec.ofNat 8 (9 * f) ∧
        (BitVec.ofNat 8 (f + 1) - 1#8).toNat = f) ∧
     (7 ≤ f → (BitVec.ofNat 8 (f + 1) - 8#8) * 9#8 = BitVec.ofNat 8 (9 * f - 63) ∧
        (BitVec.ofNat 8 (f + 1) - 8#8).toNat = f - 7)) := by decide +kernel

theorem from_file_ok {f : Nat} (hf : f < 9) (p : U16) :
    from_file_unchecked (BitVec.ofNat 8 (f + 1)) p = .ok (
      if f < 7 then ⟨(cast 64 p : U64) <<< (9 * f), 0⟩
      else ⟨0, (cast 64 p : U64) <<< (9 * f - 63)⟩) := by
  have e := toNat8 (show f + 1 < 256 by omega)
  have ha := files_arith f hf
  simp only [from_file_unchecked, e, BitVec.ofNat_eq_ofNat]
  by_cases h : f < 7
  · have h1 : csub (BitVec.ofNat 8 (f + 1)) 1#8 = .ok (BitVec.ofNat 8 (f + 1) - 1#8) :=
      csub_ok (by rw [e]; simp)
    have h2 : cmul (BitVec.ofNat 8 (f + 1) - 1#8) 9#8 = .ok (BitVec.ofNat 8 (9 * f)) := by
      rw [cmul_ok, (ha.1 h).1]; rw [(ha.1 h).2]; simp; omega
    simp only [show f + 1 ≤ 7 by omega, if_true, h1, Res.bind_ok, h2,
      toNat8 (show 9 * f < 256 by omega), cshl_ok (show 9 * f < 64 by omega), h, Res.pure_eq]
  · have h1 : csub (BitVec.ofNat 8 (f + 1)) 8#8 = .ok (BitVec.ofNat 8 (f + 1) - 8#8) :=
      csub_ok (by rw [e]; simp; omega)
    have h2 : cmul (BitVec.ofNat 8 (f + 1) - 8#8) 9#8 = .ok (BitVec.ofNat 8 (9 * f - 63)) := by
      rw [cmul_ok, (ha.2 (by omega)).1]; rw [(ha.2 (by omega)).2]; simp; omega
    simp only [show ¬ f + 1 ≤ 7 by omega, if_false, h1, Res.bind_ok, h2,
      toNat8 (show 9 * f - 63 < 256 by omega), cshl_ok (show 9 * f - 63 < 64 by omega), h,
      Res.pure_eq]

theorem get_file_ok (b : Bitboard) {f : Nat} (hf : f < 9) :
    b.get_file_unchecked (BitVec.ofNat 8 (f + 1)) = .ok (
      (cast 16 (if f < 7 then b.w0 >>> (9 * f) else b.w1 >>> (9 * f - 63)) : U16) &&& 0x1ff) := by
  have e := toNat8 (show f + 1 < 256 by omega)
  have ha := files_arith f hf
  simp only [get_file_unchecked, e, BitVec.ofNat_eq_ofNat]
  by_cases h : f < 7
  · have h1 : csub (BitVec.ofNat 8 (f + 1)) 1#8 = .ok (BitVec.ofNat 8 (f + 1) - 1#8) :=
      csub_ok (by rw [e]; simp)
    have h2 : cmul (BitVec.ofNat 8 (f + 1) - 1#8) 9#8 = .ok (BitVec.ofNat 8 (9 * f)) := by
      rw [cmul_ok, (ha.1 h).1]; rw [(ha.1 h).2]; simp; omega
    simp only [show f + 1 ≤ 7 by omega, if_true, h1, Res.bind_ok, h2,
      toNat8 (show 9 * f < 256 by omega), cshr_ok (show 9 * f < 64 by omega), h, Res.pure_eq]
  · have h1 : csub (BitVec.ofNat 8 (f + 1)) 8#8 = .ok (BitVec.ofNat 8 (f + 1) - 8#8) :=
      csub_ok (by rw [e]; simp; omega)
    have h2 : cmul (BitVec.ofNat 8 (f + 1) - 8#8) 9#8 = .ok (BitVec.ofNat 8 (9 * f - 63)) := by
      rw [cmul_ok, (ha.2 (by omega)).1]; rw [(ha.2 (by omega)).2]; simp; omega
    simp only [show ¬ f + 1 ≤ 7 by omega, if_false, h1, Res.bind_ok, h2,
      toNat8 (show 9 * f - 63 < 256 by omega), cshr_ok (show 9 * f - 63 < 64 by omega), h,
      Res.pure_eq]

theorem from_file_spec {f : Nat} (hf : f < 9) {p : U16} (hp : p.toNat < 512) :
    ∃ b, from_file_unchecked (BitVec.ofNat 8 (f + 1)) p = .ok b ∧ b.Canonical ∧
      ∀ i < 81, b.bit i = (decide (i / 9 = f) && p.getLsbD (i % 9)) := by
  have hp9 : ∀ i, 9 ≤ i → p.getLsbD i = false := by
    intro i hi
    rw [BitVec.getLsbD]; apply Nat.testBit_lt_two_pow
    exact Nat.lt_of_lt_of_le hp (Nat.pow_le_pow_right (n := 2) (i := 9) (by decide) hi)
  refine ⟨_, from_file_ok hf p, ?_, ?_⟩
  · apply canonical_of
    · intro i h h'
      split
      · simp only [cast, BitVec.getLsbD_shiftLeft, BitVec.getLsbD_setWidth]
        rw [hp9 _ (by omega)]; simp
      · simp
    · intro i h h'
      split
      · simp
      · simp only [cast, BitVec.getLsbD_shiftLeft, BitVec.getLsbD_setWidth]
        rw [hp9 _ (by omega)]; simp
  · intro i hi
    by_cases h7 : f < 7
    · simp only [h7, if_true, bit]
      by_cases h : i < 63
      · simp only [h, if_true, cast, BitVec.getLsbD_shiftLeft, BitVec.getLsbD_setWidth,
          show i < 64 by omega, decide_true, Bool.true_and]
        by_cases h1 : i < 9 * f
        · simp [h1, show ¬ i / 9 = f by omega]
        · simp only [h1, decide_false, Bool.not_false, Bool.true_and, show i - 9 * f < 64 by omega,
            decide_true]
          by_cases h2 : i / 9 = f
          · simp only [h2, decide_true, Bool.true_and]; congr 1; omega
          · rw [hp9 _ (by omega)]; simp [h2]
      · simp [h, show ¬ i / 9 = f by omega]
    · simp only [h7, if_false, bit]
      by_cases h : i < 63
      · simp [h, show ¬ i / 9 = f by omega]
      · simp only [h, if_false, cast, BitVec.getLsbD_shiftLeft, BitVec.getLsbD_setWidth,
          show i - 63 < 64 by omega, decide_true, Bool.true_and]
        by_cases h1 : i - 63 < 9 * f - 63
        · simp [h1, show ¬ i / 9 = f by omega]
        · simp only [h1, decide_false, Bool.not_false, Bool.true_and,
            show i - 63 - (9 * f - 63) < 64 by omega, decide_true]
          by_cases h2 : i / 9 = f
          · simp only [h2, decide_true, Bool.true_and]; congr 1; omega
          · rw [hp9 _ (by omega)]; simp [h2]

omit P in
theorem mask9 {i : Nat} : (0x1ff#16).getLsbD i = decide (i < 9) := by
  by_cases h : i < 16
  · revert i; decide +kernel
  · rw [BitVec.getLsbD_of_ge _ _ (by omega)]; simp; omega

theorem get_file_spec (b : Bitboard) {f : Nat} (hf : f < 9) :
    ∃ p, b.get_file_unchecked (BitVec.ofNat 8 (f + 1)) = .ok p ∧ p.toNat < 512 ∧
      ∀ i, p.getLsbD i = (decide (i < 9) && b.bit (9 * f + i)) := by
  have hb : ∀ i, ((cast 16 (if f < 7 then b.w0 >>> (9 * f) else b.w1 >>> (9 * f - 63)) : U16) &&&
      0x1ff).getLsbD i = (decide (i < 9) && b.bit (9 * f + i)) := by
    intro i
    simp only [BitVec.ofNat_eq_ofNat, BitVec.getLsbD_and, mask9, cast, BitVec.getLsbD_setWidth]
    by_cases h : i < 9
    · simp only [h, decide_true, Bool.and_true, Bool.true_and, show i < 16 by omega]
      by_cases h7 : f < 7
      · simp [h7, bit, show 9 * f + i < 63 by omega]
      · simp only [h7, if_false, BitVec.getLsbD_ushiftRight, bit, show ¬ 9 * f + i < 63 by omega]
        congr 1; omega
    · simp [h]
  refine ⟨_, get_file_ok b hf, ?_, hb⟩
  apply Nat.lt_pow_two_of_testBit (n := 9)
  intro i hi
  have := hb i
  rw [show decide (i < 9) = false by simp; omega] at this
  simpa [BitVec.getLsbD] using this

/-! ### Byte swapping -/

omit P in
theorem getLsbD_swap_bytes64 (x : U64) {i : Nat} (hi : i < 64) :
    (swap_bytes64 x).getLsbD i = x.getLsbD (8 * (7 - i / 8) + i % 8) := by
  simp only [swap_bytes64, byteOf, BitVec.getLsbD_append, BitVec.getLsbD_extractLsb']
  have h8 : i / 8 < 8 := by omega
  have hm : i = 8 * (i / 8) + i % 8 := by omega
  have hr : i % 8 < 8 := by omega
  generalize i / 8 = q at *
  generalize i % 8 = r at *
  subst hm
  have : q = 0 ∨ q = 1 ∨ q = 2 ∨ q = 3 ∨ q = 4 ∨ q = 5 ∨ q = 6 ∨ q = 7 := by omega
  rcases this with rfl | rfl | rfl | rfl | rfl | rfl | rfl | rfl <;> simp [hr] <;>
    (repeat rw [if_neg (by omega)]) <;>
    (try rw [if_pos (by omega)]) <;> (try rw [decide_eq_true (by omega), Bool.true_and]) <;>
    (try (congr 1; omega))

end Bitboard
end ShogiCore
