import Verif.Spec.Basic
import Verif.Lemmas.Res

namespace ShogiCore
namespace Square

/-- The square with array index `i`. -/
def ofIdx (i : Nat) : Square := ⟨BitVec.ofNat 8 (i + 1)⟩

/-- Array index of a square, as a number. -/
def idx0 (s : Square) : Nat := s.val.toNat - 1

theorem ext' {s t : Square} (h : s.val = t.val) : s = t := by cases s; cases t; simp_all

theorem idx0_lt {s : Square} (h : s.Valid) : s.idx0 < 81 := by unfold Valid idx0 at *; omega

theorem ofIdx_idx0 {s : Square} (h : s.Valid) : ofIdx s.idx0 = s := by
  apply ext'
  unfold Valid at h
  simp only [ofIdx, idx0, Nat.sub_add_cancel h.1, BitVec.ofNat_toNat, BitVec.setWidth_eq]

theorem ofIdx_valid {i : Nat} (h : i < 81) : (ofIdx i).Valid := by
  simp only [ofIdx, Valid, BitVec.toNat_ofNat]; omega

theorem idx0_ofIdx {i : Nat} (h : i < 81) : (ofIdx i).idx0 = i := by
  simp only [ofIdx, idx0, BitVec.toNat_ofNat]; omega

theorem idx0_inj {s t : Square} (hs : s.Valid) (ht : t.Valid) (h : s.idx0 = t.idx0) : s = t := by
  rw [← ofIdx_idx0 hs, ← ofIdx_idx0 ht, h]

theorem ofIdx_inj {i j : Nat} (hi : i < 81) (hj : j < 81) (h : ofIdx i = ofIdx j) : i = j := by
  rw [← idx0_ofIdx hi, ← idx0_ofIdx hj, h]

/-- Statements about valid squares follow from the table of 81. -/
theorem forall_valid {p : Square → Prop} (h : ∀ i < 81, p (ofIdx i)) : ∀ s, s.Valid → p s := by
  intro s hs
  have := h _ (idx0_lt hs)
  rwa [ofIdx_idx0 hs] at this

theorem inRange_of_valid {s : Square} (h : s.Valid) : inRange s.val = true := by
  unfold Valid at h; simp [inRange, h.1, h.2]

variable [Profile]

theorem sanity_check_ok {s : Square} (h : s.Valid) : s.sanity_check = .ok () := by
  simp [sanity_check, inRange_of_valid h]

theorem index_ok {s : Square} (h : s.Valid) : s.index = .ok s.val := by
  simp [index, sanity_check_ok h]

omit [Profile] in
theorem file_table : ∀ d : Build, ∀ i < 81,
    @file ⟨d⟩ (ofIdx i) = .ok (BitVec.ofNat 8 (i / 9 + 1)) := by decide +kernel

omit [Profile] in
theorem rank_table : ∀ d : Build, ∀ i < 81,
    @rank ⟨d⟩ (ofIdx i) = .ok (BitVec.ofNat 8 (i % 9 + 1)) := by decide +kernel

theorem file_ofIdx {i : Nat} (h : i < 81) : (ofIdx i).file = .ok (BitVec.ofNat 8 (i / 9 + 1)) := by
  rename_i P; exact profile_ind (motive := fun P => @file P (ofIdx i) = _) (file_table · i h) P

theorem rank_ofIdx {i : Nat} (h : i < 81) : (ofIdx i).rank = .ok (BitVec.ofNat 8 (i % 9 + 1)) := by
  rename_i P; exact profile_ind (motive := fun P => @rank P (ofIdx i) = _) (rank_table · i h) P

theorem file_ok {s : Square} (h : s.Valid) : s.file = .ok (BitVec.ofNat 8 (s.idx0 / 9 + 1)) := by
  conv => lhs; rw [← ofIdx_idx0 h]
  exact file_ofIdx (idx0_lt h)

theorem rank_ok {s : Square} (h : s.Valid) : s.rank = .ok (BitVec.ofNat 8 (s.idx0 % 9 + 1)) := by
  conv => lhs; rw [← ofIdx_idx0 h]
  exact rank_ofIdx (idx0_lt h)

theorem array_index_ok {s : Square} (h : s.Valid) :
    s.array_index = .ok (BitVec.ofNat Profile.bits s.idx0) := by
  have hv := h
  unfold Valid at hv
  have h1 : csub s.val 1 = .ok (s.val - 1) := csub_ok (by simpa using hv.1)
  have h2 : (s.val - 1#8).toNat = s.val.toNat - 1 := by
    rw [BitVec.toNat_sub]; simp; omega
  have h3 : (cast Profile.bits (s.val - 1#8) : Usize) = BitVec.ofNat Profile.bits s.idx0 := by
    apply BitVec.eq_of_toNat_eq
    simp only [cast, BitVec.toNat_setWidth, BitVec.toNat_ofNat, idx0, h2]
  have h4 : ¬ 81 ≤ (BitVec.ofNat Profile.bits s.idx0).toNat := by
    have := idx0_lt h
    rw [usize_toNat (by omega)]; omega
  simp only [array_index, sanity_check_ok h, h1, Res.bind_ok, Res.pure_eq]
  exact (congrArg (fun x : Usize => if 81 ≤ x.toNat then unreachable_unchecked else Res.ok x)
    h3).trans (if_neg h4)

omit [Profile] in
theorem from_u8_unchecked_ok {v : U8} (h : (⟨v⟩ : Square).Valid) :
    from_u8_unchecked v = .ok ⟨v⟩ := by
  have h0 := inRange_of_valid h
  unfold Valid at h
  have : v ≠ 0#8 := by rintro rfl; simp at h
  simp at h0
  simp [from_u8_unchecked, h0, nonzero_ok this]

end Square
end ShogiCore
