import Verif.Model.Refs
import Verif.Props.Bitboard
import Verif.Props.Hand

/- C15: operators on references.  C11: either byte order. -/

set_option linter.unusedSectionVars false

namespace ShogiCore

variable [P : Profile]

open Bitboard

private theorem as_u64_on_getLsbD (T : Target) (h : Hand) (j i : Nat) (hj : j < 8) (hi : i < 8) :
    h.as_u64_on.getLsbD (8 * (if T.bigEndian then 7 - j else j) + i) = h.cells[j].getLsbD i := by
  unfold Hand.as_u64_on
  cases e : T.bigEndian with
  | false =>
    simp only [Bool.false_eq_true, if_false]
    exact Hand.as_u64_getLsbD h j i hj hi
  | true =>
    simp only [if_true]
    have : j = 0 ∨ j = 1 ∨ j = 2 ∨ j = 3 ∨ j = 4 ∨ j = 5 ∨ j = 6 ∨ j = 7 := by omega
    simp only [BitVec.getLsbD_append]
    rcases this with e | e | e | e | e | e | e | e <;> subst e <;>
      (repeat (first | rw [if_neg (by omega)] | rw [if_pos (by omega)])) <;> congr 1 <;> omega

/-- C11: `==` of hands, which compares numbers that depend on the byte order of the target, says on
every target whether the hands are the same, in particular the same as on any other. -/
theorem C11_any_endianness (T T' : Target) (h g : Hand) :
    (@Hand.eq_on T h g = true ↔ h = g) ∧ @Hand.eq_on T h g = @Hand.eq_on T' h g ∧
    @Hand.eq_on T h g = h.eq g := by
  have key : ∀ T : Target, @Hand.eq_on T h g = true ↔ h = g := by
    intro T
    unfold Hand.eq_on
    rw [beq_iff_eq]
    refine ⟨fun e => ?_, fun e => by rw [e]⟩
    apply Hand.ext'
    apply Vector.ext
    intro j hj
    apply BitVec.eq_of_getLsbD_eq
    intro i hi
    rw [← as_u64_on_getLsbD T h j i hj hi, ← as_u64_on_getLsbD T g j i hj hi, e]
  refine ⟨key T, Bool.eq_iff_iff.2 ((key T).trans (key T').symm),
    Bool.eq_iff_iff.2 ((key T).trans (Hand.eq_iff h g).symm)⟩

/-- C15: the operators with one or two references, and the assigning ones with a reference. -/
theorem C15_references (a b : Bitboard) (s : Square) (h : s.Valid) :
    (∀ x ∈ [a.bitand_val_ref b, a.bitand_ref_val b, a.bitand_ref_ref b, a.bitand_assign_ref b],
      x = a.bitand b ∧ (x.Mem s ↔ a.Mem s ∧ b.Mem s)) ∧
    (∀ x ∈ [a.bitor_val_ref b, a.bitor_ref_val b, a.bitor_ref_ref b, a.bitor_assign_ref b],
      x = a.bitor b ∧ (x.Mem s ↔ a.Mem s ∨ b.Mem s)) ∧
    (∀ x ∈ [a.bitxor_val_ref b, a.bitxor_ref_val b, a.bitxor_ref_ref b, a.bitxor_assign_ref b],
      x = a.bitxor b ∧ (x.Mem s ↔ ¬ (a.Mem s ↔ b.Mem s))) ∧
    a.not_ref = a.not ∧ (a.not_ref.Mem s ↔ ¬ a.Mem s) := by
  refine ⟨?_, ?_, ?_, rfl, C15_not a s h⟩
  · have := (C15_and a b s h).1
    simp only [List.forall_mem_cons]
    exact ⟨⟨rfl, this⟩, ⟨rfl, this⟩, ⟨rfl, this⟩, ⟨rfl, this⟩, by simp⟩
  · have := (C15_or a b s h).1
    simp only [List.forall_mem_cons]
    exact ⟨⟨rfl, this⟩, ⟨rfl, this⟩, ⟨rfl, this⟩, ⟨rfl, this⟩, by simp⟩
  · have := (C15_xor a b s h).1
    simp only [List.forall_mem_cons]
    exact ⟨⟨rfl, this⟩, ⟨rfl, this⟩, ⟨rfl, this⟩, ⟨rfl, this⟩, by simp⟩

/-- C15: the variants taking a reference to a square. -/
theorem C15_assign_square_ref (a : Bitboard) (t : Square) (ht : t.Valid) :
    ∃ x y z, a.bitand_assign_sq_ref t = .ok x ∧ a.bitor_assign_sq_ref t = .ok y ∧
      a.bitxor_assign_sq_ref t = .ok z ∧
      ∀ s : Square, s.Valid → (x.Mem s ↔ a.Mem s ∧ s = t) ∧ (y.Mem s ↔ a.Mem s ∨ s = t) ∧
        (z.Mem s ↔ ¬ (a.Mem s ↔ s = t)) := by
  exact C15_assign_square a t ht

/-- C15: and these are the variants taking the square itself. -/
theorem C15_assign_square_ref_eq (a : Bitboard) (t : Square) :
    a.bitand_assign_sq_ref t = a.bitand_assign_sq t ∧ a.bitor_assign_sq_ref t = a.bitor_assign_sq t ∧
    a.bitxor_assign_sq_ref t = a.bitxor_assign_sq t := by
  exact ⟨rfl, rfl, rfl⟩

/-- On a big-endian target the words differ, the answer does not. -/
example : @Hand.as_u64_on ⟨true, true⟩ ⟨#v[1, 0, 0, 0, 0, 0, 0, 0]⟩ = 1 <<< 56 ∧
    @Hand.as_u64_on ⟨false, true⟩ ⟨#v[1, 0, 0, 0, 0, 0, 0, 0]⟩ = 1 ∧
    @Hand.eq_on ⟨true, true⟩ ⟨#v[1, 0, 0, 0, 0, 0, 0, 0]⟩ ⟨#v[0, 0, 0, 0, 0, 0, 0, 1]⟩ = false := by
  decide

end ShogiCore
