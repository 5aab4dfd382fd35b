import Verif.Lemmas.Bitboard

namespace ShogiCore

/-! ### Lowest set bits -/

theorem nat_low_split {x p : Nat} (h1 : x.testBit p = true) (h2 : ∀ j < p, x.testBit j = false) :
    x = 2 ^ p * (2 * (x / 2 ^ p / 2) + 1) := by
  have hm : x % 2 ^ p = 0 := by
    apply Nat.eq_of_testBit_eq
    intro i
    rw [Nat.testBit_mod_two_pow, Nat.zero_testBit]
    by_cases h : i < p
    · simp [h2 i h]
    · simp [h]
  have hd := Nat.div_add_mod x (2 ^ p)
  have ho : (x / 2 ^ p) % 2 = 1 := by
    have := Nat.testBit_eq_decide_div_mod_eq (x := x) (i := p)
    rw [h1] at this; simpa using this.symm
  have := Nat.div_add_mod (x / 2 ^ p) 2
  rw [ho] at this
  rw [this]; omega

theorem nat_clear_low {x p : Nat} (h1 : x.testBit p = true) (h2 : ∀ j < p, x.testBit j = false)
    (i : Nat) : (x &&& (x - 1)).testBit i = (x.testBit i && decide (i ≠ p)) := by
  have hs := nat_low_split h1 h2
  generalize x / 2 ^ p / 2 = m at hs
  have hp : 0 < 2 ^ p := Nat.two_pow_pos p
  have e1 : x = 2 ^ p * (2 * m + 1) + 0 := by omega
  have e2 : x - 1 = 2 ^ p * (2 * m) + (2 ^ p - 1) := by
    rw [hs, Nat.mul_add]; omega
  have t1 := Nat.testBit_two_pow_mul_add (2 * m + 1) hp i
  have t2 := Nat.testBit_two_pow_mul_add (2 * m) (show 2 ^ p - 1 < 2 ^ p by omega) i
  rw [← e1] at t1; rw [← e2] at t2
  rw [Nat.testBit_and, t1, t2]
  by_cases h : i < p
  · simp [h]
  · by_cases h' : i = p
    · subst h'; simp
    · have : i - p = (i - p - 1) + 1 := by omega
      have e3 : (2 * m + 1) / 2 = (2 * m) / 2 := by omega
      rw [this]
      simp only [h, h', if_false, Nat.testBit_succ, e3, ne_eq, not_false_eq_true, decide_true,
        Bool.and_self, Bool.and_true]

theorem bv_clear_low {n : Nat} {x : BitVec n} {p : Nat} (h1 : x.getLsbD p = true)
    (h2 : ∀ j < p, x.getLsbD j = false) (i : Nat) :
    (x &&& (x - 1)).getLsbD i = (x.getLsbD i && decide (i ≠ p)) := by
  have hx : 0 < x.toNat := by
    rcases Nat.eq_zero_or_pos x.toNat with h | h
    · rw [BitVec.getLsbD, h] at h1; simp at h1
    · exact h
  have hlt := x.isLt
  have hn : 0 < n := by
    rcases Nat.eq_zero_or_pos n with h | h
    · subst h; simp at hlt; omega
    · exact h
  have h2n : 2 ≤ 2 ^ n := by
    calc 2 = 2 ^ 1 := rfl
      _ ≤ 2 ^ n := Nat.pow_le_pow_right (by decide) hn
  have e : (x - 1).toNat = x.toNat - 1 := by
    rw [BitVec.toNat_sub]
    simp only [BitVec.ofNat_eq_ofNat, BitVec.toNat_ofNat, Nat.mod_eq_of_lt (show 1 < 2 ^ n by omega)]
    rw [show 2 ^ n - 1 + x.toNat = (x.toNat - 1) + 2 ^ n by omega, Nat.add_mod_right,
      Nat.mod_eq_of_lt (by omega)]
  have := nat_clear_low (x := x.toNat) h1 h2 i
  rw [BitVec.getLsbD, BitVec.toNat_and, e, this]; rfl

/-- Filtering a strictly increasing list: the least member comes first. -/
theorem filter_least {l : List Nat} (hs : l.Pairwise (· < ·)) {p : Nat → Bool} {i : Nat}
    (hi : i ∈ l) (hp : p i = true) (hlow : ∀ j, j < i → p j = false) :
    l.filter p = i :: l.filter (fun j => p j && decide (j ≠ i)) := by
  induction l with
  | nil => simp at hi
  | cons a t ih =>
    rw [List.pairwise_cons] at hs
    rcases List.mem_cons.1 hi with rfl | hi'
    · rw [List.filter_cons, List.filter_cons]
      simp only [hp, if_true, ne_eq, not_true_eq_false, decide_false, Bool.and_false,
        Bool.false_eq_true, if_false]
      congr 1
      apply List.filter_congr
      intro j hj
      have := hs.1 j hj
      simp [show j ≠ i by omega]
    · have := hs.1 i hi'
      rw [List.filter_cons, List.filter_cons]
      simp only [hlow a this, Bool.false_and, Bool.false_eq_true, if_false]
      exact ih hs.2 hi'

theorem range_pairwise (n : Nat) : (List.range n).Pairwise (· < ·) := List.pairwise_lt_range

namespace Bitboard

/-- The array indices in a bitboard, ascending. -/
def bits (b : Bitboard) : List Nat := (List.range 81).filter b.bit

theorem mem_bits {b : Bitboard} {i : Nat} : i ∈ b.bits ↔ i < 81 ∧ b.bit i = true := by
  simp [bits]

theorem bits_pairwise (b : Bitboard) : b.bits.Pairwise (· < ·) :=
  (range_pairwise 81).filter _

theorem bits_length_le (b : Bitboard) : b.bits.length ≤ 81 := by
  simpa [bits] using List.length_filter_le b.bit (List.range 81)

theorem getLsbD_to_u128 (b : Bitboard) (i : Nat) :
    b.to_u128.getLsbD i = if i < 64 then b.w0.getLsbD i else b.w1.getLsbD (i - 64) := by
  simp only [to_u128, cast, BitVec.getLsbD_or, BitVec.getLsbD_shiftLeft, BitVec.getLsbD_setWidth]
  by_cases h : i < 64
  · simp [h, show i < 128 by omega]
  · by_cases h' : i < 128
    · rw [BitVec.getLsbD_of_ge b.w0 i (by omega)]
      simp [h, h']; omega
    · rw [BitVec.getLsbD_of_ge b.w0 i (by omega), BitVec.getLsbD_of_ge b.w1 (i - 64) (by omega)]
      simp

theorem getLsbD_to_u128_idx (b : Bitboard) {i : Nat} (h : i < 81) :
    b.to_u128.getLsbD (if i < 63 then i else i + 1) = b.bit i := by
  rw [getLsbD_to_u128, bit]
  by_cases h63 : i < 63
  · simp [h63, show i < 64 by omega]
  · simp [h63, show ¬ i + 1 < 64 by omega]

theorem w0_from_u128 (a : U128) (i : Nat) :
    (from_u128_unchecked a).w0.getLsbD i = (decide (i < 64) && a.getLsbD i) := by
  simp [from_u128_unchecked, cast, BitVec.getLsbD_setWidth]

theorem w1_from_u128 (a : U128) (i : Nat) :
    (from_u128_unchecked a).w1.getLsbD i = (decide (i < 64) && a.getLsbD (64 + i)) := by
  simp [from_u128_unchecked, cast, BitVec.getLsbD_setWidth]

/-- A canonical board's word has bits only at positions of squares. -/
theorem u128_bit_cases {b : Bitboard} (hb : b.Canonical) {p : Nat}
    (h : b.to_u128.getLsbD p = true) : (p < 63 ∧ b.bit p = true) ∨
      (64 ≤ p ∧ p < 82 ∧ b.bit (p - 1) = true) := by
  rw [getLsbD_to_u128] at h
  by_cases h64 : p < 64
  · simp only [h64, if_true] at h
    by_cases h63 : p < 63
    · left; simp [bit, h63, h]
    · rw [canonical_w0 hb (by omega)] at h; cases h
  · simp only [h64, if_false] at h
    right
    have : p - 64 < 18 := by
      rcases Nat.lt_or_ge (p - 64) 18 with h' | h'
      · exact h'
      · rw [canonical_w1 hb h'] at h; cases h
    refine ⟨by omega, by omega, ?_⟩
    rw [bit, if_neg (by omega), show p - 1 - 63 = p - 64 by omega]; exact h

theorem u128_eq_zero_iff (b : Bitboard) : b.to_u128 = 0#128 ↔ b.w0 = 0#64 ∧ b.w1 = 0#64 := by
  constructor
  · intro h
    constructor <;> apply BitVec.eq_of_getLsbD_eq <;> intro i hi
    · have := getLsbD_to_u128 b i; rw [h] at this; rw [if_pos hi] at this
      rw [← this]; simp
    · have := getLsbD_to_u128 b (i + 64); rw [h] at this
      rw [if_neg (by omega), Nat.add_sub_cancel] at this
      rw [← this]; simp
  · rintro ⟨h0, h1⟩
    simp [to_u128, h0, h1, cast]

theorem bits_nil_iff {b : Bitboard} (hb : b.Canonical) : b.bits = [] ↔ b.to_u128 = 0#128 := by
  constructor
  · intro h
    apply BitVec.eq_of_getLsbD_eq
    intro p _
    cases hp : b.to_u128.getLsbD p
    · simp
    · exfalso
      rcases u128_bit_cases hb hp with ⟨h1, h2⟩ | ⟨h1, h2, h3⟩
      · have : p ∈ b.bits := mem_bits.2 ⟨by omega, h2⟩
        rw [h] at this; cases this
      · have : p - 1 ∈ b.bits := mem_bits.2 ⟨by omega, h3⟩
        rw [h] at this; cases this
  · intro h
    apply List.filter_eq_nil_iff.2
    intro i hi
    rw [← getLsbD_to_u128_idx b (List.mem_range.1 hi), h]; simp

theorem trailing_zeros_spec {b : Bitboard} (h : b.to_u128 ≠ 0#128) :
    ∃ p, p < 128 ∧ trailing_zeros b.to_u128 = BitVec.ofNat 32 p ∧ b.to_u128.getLsbD p = true ∧
      ∀ j < p, b.to_u128.getLsbD j = false := by
  cases hf : (List.range 128).find? (fun i => b.to_u128.getLsbD i) with
  | none =>
    exfalso; apply h
    apply BitVec.eq_of_getLsbD_eq
    intro i hi
    have := List.find?_eq_none.1 hf i (List.mem_range.2 hi)
    simpa using this
  | some p =>
    obtain ⟨h1, h2, h3⟩ := List.find?_range_eq_some.1 hf
    refine ⟨p, List.mem_range.1 h2, by simp [trailing_zeros, hf], h1, ?_⟩
    intro j hj; simpa using h3 j hj

/-- `b` without the array index `i`. -/
theorem pop_ok [P : Profile] {b : Bitboard} (hb : b.Canonical) :
    (b.bits = [] ∧ b.pop = .ok (b, none)) ∨
    ∃ i b', i < 81 ∧ b.bit i = true ∧ (∀ j < i, b.bit j = false) ∧
      b.pop = .ok (b', some (Square.ofIdx i)) ∧ b'.Canonical ∧
      (∀ j < 81, b'.bit j = (b.bit j && decide (j ≠ i))) ∧
      b.bits = i :: b'.bits := by
  by_cases hz : b.to_u128 = 0#128
  · left
    refine ⟨(bits_nil_iff hb).2 hz, ?_⟩
    simp [pop, hz]
  · right
    obtain ⟨p, hp, htz, h1, h2⟩ := trailing_zeros_spec hz
    have hcase := u128_bit_cases hb h1
    -- the array index
    obtain ⟨i, hi, hpi⟩ : ∃ i, i < 81 ∧ (if i < 63 then i else i + 1) = p := by
      by_cases h : p < 63
      · exact ⟨p, by omega, by simp [h]⟩
      · exact ⟨p - 1, by omega, by rw [if_neg (by omega)]; omega⟩
    have hbi : b.bit i = true := by
      rw [← getLsbD_to_u128_idx b hi, hpi]; exact h1
    have hlow : ∀ j < i, b.bit j = false := by
      intro j hj
      rw [← getLsbD_to_u128_idx b (by omega)]
      apply h2
      rw [← hpi]; split <;> split <;> omega
    let b' := from_u128_unchecked (b.to_u128 &&& (b.to_u128 - 1))
    have hclear := bv_clear_low h1 h2
    have hcan : b'.Canonical := by
      apply canonical_of
      · intro k hk hk'
        simp only [b', w0_from_u128, hclear, getLsbD_to_u128, hk', if_true, canonical_w0 hb hk]
        simp
      · intro k hk hk'
        simp only [b', w1_from_u128, hclear, getLsbD_to_u128]
        simp [canonical_w1 hb hk]
    have hbit : ∀ j < 81, b'.bit j = (b.bit j && decide (j ≠ i)) := by
      intro j hj
      simp only [bit, b', w0_from_u128, w1_from_u128, hclear, getLsbD_to_u128]
      by_cases hj63 : j < 63
      · simp [hj63, show j < 64 by omega]
        congr 1
        have : (j = p) ↔ (j = i) := by
          rw [← hpi]; split <;> omega
        simp [this]
      · simp only [hj63, if_false, show j - 63 < 64 by omega, decide_true, Bool.true_and,
          show ¬ 64 + (j - 63) < 64 by omega, ne_eq, Nat.add_sub_cancel_left, decide_not]
        have : (64 + (j - 63) = p) ↔ (j = i) := by
          rw [← hpi]; split <;> omega
        rw [decide_eq_decide.2 this]
    have hbits : b.bits = i :: b'.bits := by
      rw [bits, filter_least (range_pairwise 81) (List.mem_range.2 hi) hbi hlow]
      congr 1
      apply List.filter_congr
      intro j hj
      exact (hbit j (List.mem_range.1 hj)).symm
    refine ⟨i, b', hi, hbi, hlow, ?_, hcan, hbit, hbits⟩
    have hpos : (trailing_zeros b.to_u128).toNat = p := by
      rw [htz]; simp only [BitVec.toNat_ofNat]; omega
    have hc8 : (cast 8 (trailing_zeros b.to_u128) : U8) = BitVec.ofNat 8 p := by
      apply BitVec.eq_of_toNat_eq
      simp only [cast, BitVec.toNat_setWidth, hpos, BitVec.toNat_ofNat]
    have hsq : (if (trailing_zeros b.to_u128).toNat < 63 then do
          Square.from_u8_unchecked (← cadd (cast 8 (trailing_zeros b.to_u128)) 1)
        else Square.from_u8_unchecked (cast 8 (trailing_zeros b.to_u128))) =
        Res.ok (Square.ofIdx i) := by
      rw [hpos, hc8]
      by_cases hp63 : p < 63
      · have hip : i = p := by split at hpi <;> omega
        have e : BitVec.ofNat 8 p + 1 = BitVec.ofNat 8 (i + 1) := by
          rw [hip]; simp [BitVec.ofNat_add]
        rw [if_pos hp63, cadd_ok (by simp only [BitVec.ofNat_eq_ofNat, BitVec.toNat_ofNat]; omega)]
        rw [Res.bind_ok, e]
        exact Square.from_u8_unchecked_ok (Square.ofIdx_valid hi)
      · rw [if_neg hp63]
        have e : BitVec.ofNat 8 p = BitVec.ofNat 8 (i + 1) := by
          rw [← hpi, if_neg]; split at hpi <;> omega
        rw [e]
        exact Square.from_u8_unchecked_ok (Square.ofIdx_valid hi)
    have hda : debug_assert (b.contains (Square.ofIdx i)) = .ok () := by
      apply debug_assert_ok
      rw [contains_ok b (Square.ofIdx_valid hi), Square.idx0_ofIdx hi, hbi]
    have hz' : ¬ b.to_u128 = 0 := hz
    by_cases hp63 : (trailing_zeros b.to_u128).toNat < 63
    · rw [if_pos hp63] at hsq
      simp only [pop, hz', if_false, hp63, if_true, Res.pure_eq, b']
      rw [← bind_assoc, hsq, Res.bind_ok, hda, Res.bind_ok]
    · rw [if_neg hp63] at hsq
      simp only [pop, hz', if_false, hp63, Res.pure_eq, b', hsq, Res.bind_ok, hda]

theorem iterate_ok [P : Profile] : ∀ (fuel : Nat) {b : Bitboard}, b.Canonical →
    b.iterate fuel = .ok (if b.bits.length < fuel then some (b.bits.map Square.ofIdx) else none)
  | 0, b, _ => by simp [iterate]
  | fuel + 1, b, hb => by
    rcases pop_ok hb with ⟨h1, h2⟩ | ⟨i, b', _, _, _, h2, h3, _, h5⟩
    · simp [iterate, h1, h2]
    · rw [iterate, h2, Res.bind_ok]
      simp only [iterate_ok fuel h3, h5, List.length_cons, Nat.add_lt_add_iff_right, Res.bind_ok]
      by_cases hl : b'.bits.length < fuel <;> simp [hl]

/-! ### Counting -/

theorem countP_range_add (p : Nat → Bool) (m n : Nat) :
    (List.range (m + n)).countP p =
      (List.range m).countP p + (List.range n).countP (fun j => p (m + j)) := by
  rw [List.range_add, List.countP_append, List.countP_map]; rfl

theorem count_ok [P : Profile] {b : Bitboard} (hb : b.Canonical) :
    b.count = .ok (BitVec.ofNat 8 b.bits.length) := by
  have e0 : (List.range 64).countP (fun i => b.w0.getLsbD i) = (List.range 63).countP b.bit := by
    refine (countP_range_add (fun i => b.w0.getLsbD i) 63 1).trans ?_
    have : (List.range 1).countP (fun j => b.w0.getLsbD (63 + j)) = 0 := by
      rw [List.countP_eq_zero]
      intro i _
      rw [canonical_w0 hb (by omega)]; simp
    rw [this, Nat.add_zero]
    apply List.countP_congr
    intro i hi
    simp [bit, List.mem_range.1 hi]
  have e1 : (List.range 64).countP (fun i => b.w1.getLsbD i) =
      (List.range 18).countP (fun j => b.bit (63 + j)) := by
    refine (countP_range_add (fun i => b.w1.getLsbD i) 18 46).trans ?_
    have : (List.range 46).countP (fun j => b.w1.getLsbD (18 + j)) = 0 := by
      rw [List.countP_eq_zero]
      intro i _
      rw [canonical_w1 hb (by omega)]; simp
    rw [this, Nat.add_zero]
    apply List.countP_congr
    intro i hi
    simp [bit, show ¬ 63 + i < 63 by omega]
  have e : b.bits.length = (List.range 63).countP b.bit +
      (List.range 18).countP (fun j => b.bit (63 + j)) := by
    rw [bits, ← List.countP_eq_length_filter, show 81 = 63 + 18 from rfl, countP_range_add]
  have l := bits_length_le b
  have h : ((count_ones b.w0).toNat + (count_ones b.w1).toNat) = b.bits.length := by
    simp only [count_ones, e0, e1, e, BitVec.toNat_ofNat]; omega
  rw [count, cadd_ok (by rw [h]; omega), Res.bind_ok, Res.pure_eq]
  congr 1
  apply BitVec.eq_of_toNat_eq
  simp only [cast, BitVec.toNat_setWidth, BitVec.toNat_add, h, BitVec.toNat_ofNat]; omega

end Bitboard
end ShogiCore
