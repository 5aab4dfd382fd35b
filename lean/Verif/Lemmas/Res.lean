import Verif.Model.Prelude

namespace ShogiCore

/-- An arbitrary profile is one of the four. -/
theorem profile_ind {motive : Profile → Prop} (h : ∀ d, motive ⟨d⟩) (P : Profile) : motive P :=
  h P.build

/-- A build for examples: overflow checks on, 32-bit pointers. -/
@[reducible] def demoBuild : Profile := ⟨⟨true, .w32⟩⟩

theorem bits_ge [P : Profile] : 2 ^ 32 ≤ 2 ^ Profile.bits := by
  refine Nat.pow_le_pow_right (by decide) ?_
  unfold Profile.bits
  cases P.build.ptr <;> decide

/-- Numbers below `2 ^ 32` fit in `usize`. -/
theorem usize_toNat [Profile] {n : Nat} (h : n < 2 ^ 32) : (BitVec.ofNat Profile.bits n).toNat = n := by
  rw [BitVec.toNat_ofNat]
  exact Nat.mod_eq_of_lt (Nat.lt_of_lt_of_le h bits_ge)

section
variable [Profile] {n : Nat}

theorem cadd_ok {a b : BitVec n} (h : a.toNat + b.toNat < 2 ^ n) : cadd a b = .ok (a + b) := by
  simp [cadd, Nat.not_le.mpr h]

theorem csub_ok {a b : BitVec n} (h : b.toNat ≤ a.toNat) : csub a b = .ok (a - b) := by
  simp [csub, Nat.not_lt.mpr h]

theorem cmul_ok {a b : BitVec n} (h : a.toNat * b.toNat < 2 ^ n) : cmul a b = .ok (a * b) := by
  simp [cmul, Nat.not_le.mpr h]

theorem cshl_ok {a : BitVec n} {k : Nat} (h : k < n) : cshl a k = .ok (a <<< k) := by
  simp [cshl, Nat.not_le.mpr h, Nat.mod_eq_of_lt h]

theorem cshr_ok {a : BitVec n} {k : Nat} (h : k < n) : cshr a k = .ok (a >>> k) := by
  simp [cshr, Nat.not_le.mpr h, Nat.mod_eq_of_lt h]

@[simp] theorem debug_assert_true : debug_assert (.ok true) = .ok () := by
  unfold debug_assert; split <;> simp

theorem debug_assert_ok {c : Res Bool} (h : c = .ok true) : debug_assert c = .ok () := by
  subst h; simp

end

section
variable {α : Type u} {n : Nat}

theorem idx_ok {v : Vector α n} {i : Nat} (h : i < n) : idx v i = .ok v[i] := by simp [idx, h]
theorem idxSet_ok {v : Vector α n} {i : Nat} {x : α} (h : i < n) :
    idxSet v i x = .ok (v.set i x h) := by simp [idxSet, h]
theorem getUnchecked_ok {v : Vector α n} {i : Nat} (h : i < n) :
    getUnchecked v i = .ok v[i] := by simp [getUnchecked, h]
theorem setUnchecked_ok {v : Vector α n} {i : Nat} {x : α} (h : i < n) :
    setUnchecked v i x = .ok (v.set i x h) := by simp [setUnchecked, h]

theorem nonzero_ok {a : BitVec n} (h : a ≠ 0#n) : nonzero_new_unchecked a = .ok a := by
  simp [nonzero_new_unchecked, h]

end

/-- Splitting a statement about all 8-bit words into a finite table. -/
theorem forall_u8 {p : U8 → Prop} (h : ∀ i : Fin 256, p (BitVec.ofNat 8 i)) : ∀ v, p v := by
  intro v
  have := h ⟨v.toNat, v.isLt⟩
  simpa using this

end ShogiCore
