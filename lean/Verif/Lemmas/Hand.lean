import Verif.Lemmas.Piece

namespace ShogiCore

namespace Hand

theorem ext' {s t : Hand} (h : s.cells = t.cells) : s = t := by cases s; cases t; simp_all

theorem inHand_iff (k : PieceKind) : k.InHand ↔ k.idx0 < 7 := by revert k; decide

/-- Content of the cell of a kind. -/
def cell (h : Hand) (k : PieceKind) (hk : k.InHand) : U8 :=
  h.cells[k.idx0]'(by have := (inHand_iff k).1 hk; omega)

variable [P : Profile]

omit P in
private theorem index_table : ∀ d : Build, ∀ k : PieceKind,
    @csub ⟨d⟩ 8 k.toU8 1 = .ok (BitVec.ofNat 8 k.idx0) := by decide +kernel

private theorem index_ok (k : PieceKind) : csub k.toU8 1 = .ok (BitVec.ofNat 8 k.idx0) :=
  profile_ind (motive := fun P => @csub P 8 k.toU8 1 = _) (index_table · k) P

private theorem cast_ok (k : PieceKind) :
    (cast Profile.bits (BitVec.ofNat 8 k.idx0) : Usize).toNat = k.idx0 :=
  have : ∀ d : Build, ∀ k : PieceKind, (cast d.ptr.bits (BitVec.ofNat 8 k.idx0)).toNat = k.idx0 := by
    decide +kernel
  this P.build k

theorem count_ok (h : Hand) (k : PieceKind) :
    h.count k = .ok (if hk : k.InHand then some (h.cell k hk) else none) := by
  unfold count
  simp only [index_ok, Res.bind_ok, cast_ok]
  by_cases hk : k.InHand
  · have h7 := (inHand_iff k).1 hk
    rw [if_pos h7, dif_pos hk, idx_ok (by omega)]; rfl
  · rw [if_neg (fun h => hk ((inHand_iff k).2 h)), dif_neg hk]; rfl

/-- The hand with the cell of `k` replaced. -/
def setCell (h : Hand) (k : PieceKind) (hk : k.InHand) (v : U8) : Hand :=
  ⟨h.cells.set k.idx0 v (by have := (inHand_iff k).1 hk; omega)⟩

omit P in
theorem cell_setCell (h : Hand) (k l : PieceKind) (hk : k.InHand) (hl : l.InHand) (v : U8) :
    (h.setCell k hk v).cell l hl = if k = l then v else h.cell l hl := by
  unfold setCell cell
  simp only [Vector.getElem_set]
  by_cases e : k = l
  · subst e; simp
  · rw [if_neg e, if_neg (fun h => e (PieceKind.idx0_inj h))]

omit P in
theorem setCell_self (h : Hand) (k : PieceKind) (hk : k.InHand) (v : U8) (e : h.cell k hk = v) :
    h.setCell k hk v = h := by
  apply ext'; unfold setCell; simp only; subst e; unfold cell; simp

omit P in
theorem setCell_setCell (h : Hand) (k : PieceKind) (hk : k.InHand) (v w : U8) :
    (h.setCell k hk v).setCell k hk w = h.setCell k hk w := by
  apply ext'; unfold setCell; simp

theorem added_ok (h : Hand) (k : PieceKind) :
    h.added k = .ok (if hk : k.InHand then some (h.setCell k hk (h.cell k hk + 1)) else none) := by
  unfold added
  simp only [index_ok, Res.bind_ok, cast_ok]
  by_cases hk : k.InHand
  · have h7 := (inHand_iff k).1 hk
    rw [if_pos h7, dif_pos hk, idx_ok (by omega), Res.bind_ok, idxSet_ok (by omega)]; rfl
  · rw [if_neg (fun h => hk ((inHand_iff k).2 h)), dif_neg hk]; rfl

theorem removed_ok (h : Hand) (k : PieceKind) :
    h.removed k = .ok (if hk : k.InHand then
      if (h.cell k hk).toNat = 0 then none else some (h.setCell k hk (h.cell k hk - 1))
      else none) := by
  unfold removed
  simp only [index_ok, Res.bind_ok, cast_ok]
  by_cases hk : k.InHand
  · have h7 := (inHand_iff k).1 hk
    rw [if_pos h7, dif_pos hk, idx_ok (by omega), Res.bind_ok]
    change (if (h.cell k hk).toNat < 1 then _ else _) = _
    by_cases h0 : (h.cell k hk).toNat = 0
    · rw [if_pos (by omega), if_pos h0]; rfl
    · rw [if_neg (by omega), if_neg h0, idxSet_ok (by omega)]; rfl
  · rw [if_neg (fun h => hk ((inHand_iff k).2 h)), dif_neg hk]; rfl

omit P in
theorem as_u64_getLsbD (h : Hand) (j i : Nat) (hj : j < 8) (hi : i < 8) :
    h.as_u64.getLsbD (8 * j + i) = h.cells[j].getLsbD i := by
  unfold as_u64
  have : j = 0 ∨ j = 1 ∨ j = 2 ∨ j = 3 ∨ j = 4 ∨ j = 5 ∨ j = 6 ∨ j = 7 := by omega
  simp only [BitVec.getLsbD_append]
  rcases this with e | e | e | e | e | e | e | e <;> subst e <;>
    (repeat (first | rw [if_neg (by omega)] | rw [if_pos (by omega)])) <;> congr 1 <;> omega

omit P in
theorem as_u64_inj {h g : Hand} (e : h.as_u64 = g.as_u64) : h = g := by
  apply ext'
  apply Vector.ext
  intro j hj
  apply BitVec.eq_of_getLsbD_eq
  intro i hi
  rw [← as_u64_getLsbD h j i hj hi, ← as_u64_getLsbD g j i hj hi, e]

omit P in
theorem eq_iff (h g : Hand) : h.eq g = true ↔ h = g := by
  unfold eq; rw [beq_iff_eq]; exact ⟨as_u64_inj, congrArg _⟩

omit P in
/-- Extensionality through the seven cells and the hidden byte. -/
theorem ext_cells {h g : Hand} (hc : ∀ k hk, h.cell k hk = g.cell k hk)
    (h7 : h.cells[7] = g.cells[7]) : h = g := by
  apply ext'
  apply Vector.ext
  intro j hj
  have : j = 0 ∨ j = 1 ∨ j = 2 ∨ j = 3 ∨ j = 4 ∨ j = 5 ∨ j = 6 ∨ j = 7 := by omega
  rcases this with e | e | e | e | e | e | e | e <;> subst e
  · exact hc .Pawn trivial
  · exact hc .Lance trivial
  · exact hc .Knight trivial
  · exact hc .Silver trivial
  · exact hc .Gold trivial
  · exact hc .Bishop trivial
  · exact hc .Rook trivial
  · exact h7

omit P in
theorem cell_new (k : PieceKind) (hk : k.InHand) : Hand.new.cell k hk = 0 := by
  unfold Hand.new cell; simp

omit P in
theorem setCell_7 (h : Hand) (k : PieceKind) (hk : k.InHand) (v : U8) :
    (h.setCell k hk v).cells[7] = h.cells[7] := by
  unfold setCell; simp only [Vector.getElem_set]
  rw [if_neg]; have := (inHand_iff k).1 hk; omega

end Hand
end ShogiCore
