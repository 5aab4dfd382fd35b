import Verif.Lemmas.Hand

/- C09-C11: hands. -/

namespace ShogiCore
variable [P : Profile]

/-- An operation on a hand, as issued by a client. -/
inductive HandOp where
  | add (k : PieceKind)
  | remove (k : PieceKind)
  deriving DecidableEq

/-- What running one operation does: the API's verdict and the hand the client then holds
(`None` leaves the client with the old hand). -/
inductive HandStep : Hand → HandOp → Bool → Hand → Prop
  | add_ok {h h' k} : h.added k = .ok (some h') → HandStep h (.add k) true h'
  | add_none {h k} : h.added k = .ok none → HandStep h (.add k) false h
  | remove_ok {h h' k} : h.removed k = .ok (some h') → HandStep h (.remove k) true h'
  | remove_none {h k} : h.removed k = .ok none → HandStep h (.remove k) false h

/-- A history of operations with verdicts (latest first), starting from `Hand::new()`. -/
inductive HandHistory : List (HandOp × Bool) → Hand → Prop
  | nil : HandHistory [] Hand.new
  | cons {l h op b h'} : HandHistory l h → HandStep h op b h' → HandHistory ((op, b) :: l) h'

/-- Successful additions of `k` in a history. -/
def additions (k : PieceKind) (l : List (HandOp × Bool)) : Nat := l.count (.add k, true)
/-- Successful removals of `k` in a history. -/
def removals (k : PieceKind) (l : List (HandOp × Bool)) : Nat := l.count (.remove k, true)

/-- Every operation yields a verdict: no history gets stuck, panics or hits UB. -/
theorem C09_total (h : Hand) (op : HandOp) : ∃ b h', HandStep h op b h' := by
  cases op with
  | add k =>
    by_cases hk : k.InHand
    · exact ⟨_, _, .add_ok (by rw [Hand.added_ok, dif_pos hk])⟩
    · exact ⟨_, _, .add_none (by rw [Hand.added_ok, dif_neg hk])⟩
  | remove k =>
    by_cases hk : k.InHand
    · by_cases h0 : (h.cell k hk).toNat = 0
      · exact ⟨_, _, .remove_none (by rw [Hand.removed_ok, dif_pos hk, if_pos h0])⟩
      · exact ⟨_, _, .remove_ok (by rw [Hand.removed_ok, dif_pos hk, if_neg h0])⟩
    · exact ⟨_, _, .remove_none (by rw [Hand.removed_ok, dif_neg hk])⟩

/-- Effect of a step on the count of a kind. -/
private theorem step_cell {h h' : Hand} {op : HandOp} {b : Bool} (st : HandStep h op b h')
    (k : PieceKind) (hk : k.InHand) :
    h'.cell k hk = (if (op, b) = (.add k, true) then h.cell k hk + 1 else
      if (op, b) = (.remove k, true) then h.cell k hk - 1 else h.cell k hk) ∧
    ((op, b) = (.remove k, true) → (h.cell k hk).toNat ≠ 0) := by
  cases st with
  | @add_ok _ l e =>
    rw [Hand.added_ok] at e
    split at e
    · rename_i hl; simp only [Res.ok.injEq, Option.some.injEq] at e; subst e
      rw [Hand.cell_setCell]
      by_cases e : l = k
      · subst e; simp
      · simp [e]
    · cases e
  | add_none e => simp
  | @remove_ok _ l e =>
    rw [Hand.removed_ok] at e
    split at e
    · rename_i hl
      split at e
      · cases e
      · rename_i h0
        simp only [Res.ok.injEq, Option.some.injEq] at e; subst e
        rw [Hand.cell_setCell]
        by_cases e : l = k
        · subst e; simpa using h0
        · simp [e]
    · cases e
  | remove_none e => simp

omit P in
private theorem count_cons' (op : HandOp) (b : Bool) (l : List (HandOp × Bool)) (x : HandOp × Bool) :
    ((op, b) :: l).count x = l.count x + if (op, b) = x then 1 else 0 := by
  rw [List.count_cons]; simp

/-- C09 (unconditional form): the count of each hand kind is successful additions minus
successful removals, modulo 256. -/
theorem C09_count_mod (l : List (HandOp × Bool)) (h : Hand) (hist : HandHistory l h)
    (k : PieceKind) (hk : k.InHand) :
    ∃ n, h.count k = .ok (some n) ∧ (n.toNat + removals k l) % 256 = additions k l % 256 := by
  rw [Hand.count_ok, dif_pos hk]
  refine ⟨_, rfl, ?_⟩
  induction hist with
  | nil => simp [Hand.cell_new, removals, additions]
  | @cons l h op b h' hist st ih =>
    obtain ⟨e, h0⟩ := step_cell st k hk
    rw [e]
    unfold removals additions at *
    rw [count_cons', count_cons']
    have hlt := (h.cell k hk).isLt
    by_cases h1 : (op, b) = (.add k, true)
    · have h2 : (op, b) ≠ (.remove k, true) := by rw [h1]; simp
      rw [if_pos h1, if_neg h2, if_pos h1, BitVec.toNat_add]
      simp only [BitVec.ofNat_eq_ofNat, BitVec.toNat_ofNat]; omega
    · rw [if_neg h1, if_neg h1]
      by_cases h2 : (op, b) = (.remove k, true)
      · have := h0 h2
        rw [if_pos h2, if_pos h2, BitVec.toNat_sub]
        simp only [BitVec.ofNat_eq_ofNat, BitVec.toNat_ofNat]; omega
      · rw [if_neg h2, if_neg h2]; omega

/-- C09: as long as no prefix of the history holds more than 255 of `k`, the count is
exactly the number of successful additions minus successful removals. -/
theorem C09_count (l : List (HandOp × Bool)) (h : Hand) (hist : HandHistory l h)
    (k : PieceKind) (hk : k.InHand)
    (bound : ∀ p, p <:+ l → additions k p ≤ removals k p + 255) :
    ∃ n, h.count k = .ok (some n) ∧ n.toNat + removals k l = additions k l := by
  rw [Hand.count_ok, dif_pos hk]
  refine ⟨_, rfl, ?_⟩
  induction hist with
  | nil => simp [Hand.cell_new, removals, additions]
  | @cons l h op b h' hist st ih =>
    have ih := ih (fun p hp => bound p (hp.trans (List.suffix_cons _ _)))
    have bd := bound _ (List.suffix_refl _)
    obtain ⟨e, h0⟩ := step_cell st k hk
    rw [e]
    unfold removals additions at *
    rw [count_cons', count_cons'] at bd ⊢
    have hlt := (h.cell k hk).isLt
    by_cases h1 : (op, b) = (.add k, true)
    · have h2 : (op, b) ≠ (.remove k, true) := by rw [h1]; simp
      rw [if_pos h1, if_neg h2] at bd
      rw [if_pos h1, if_neg h2, if_pos h1, BitVec.toNat_add]
      simp only [BitVec.ofNat_eq_ofNat, BitVec.toNat_ofNat]; omega
    · rw [if_neg h1, if_neg h1]
      by_cases h2 : (op, b) = (.remove k, true)
      · have := h0 h2
        rw [if_pos h2, if_pos h2, BitVec.toNat_sub]
        simp only [BitVec.ofNat_eq_ofNat, BitVec.toNat_ofNat]; omega
      · rw [if_neg h2, if_neg h2]; omega

/-- C09: which operations succeed — additions always do for hand kinds; a removal fails
exactly when the count is zero; other kinds are always refused and have no count. -/
theorem C09_verdicts (h : Hand) (k : PieceKind) :
    (k.InHand → (∃ h', h.added k = .ok (some h')) ∧
      ∃ n, h.count k = .ok (some n) ∧
        (n.toNat = 0 → h.removed k = .ok none) ∧
        (n.toNat ≠ 0 → ∃ h', h.removed k = .ok (some h'))) ∧
    (¬ k.InHand → h.added k = .ok none ∧ h.removed k = .ok none ∧ h.count k = .ok none) := by
  refine ⟨fun hk => ?_, fun hk => ?_⟩
  · refine ⟨⟨_, by rw [Hand.added_ok, dif_pos hk]⟩, _, by rw [Hand.count_ok, dif_pos hk], ?_, ?_⟩
    · intro h0; rw [Hand.removed_ok, dif_pos hk, if_pos h0]
    · intro h0; exact ⟨_, by rw [Hand.removed_ok, dif_pos hk, if_neg h0]⟩
  · rw [Hand.added_ok, Hand.removed_ok, Hand.count_ok, dif_neg hk, dif_neg hk, dif_neg hk]
    simp

/-- C09: adding or removing one kind never affects the count of another. -/
theorem C09_frame (h h' : Hand) (k l : PieceKind) (hne : k ≠ l)
    (e : h.added k = .ok (some h') ∨ h.removed k = .ok (some h')) :
    h'.count l = h.count l := by
  rw [Hand.count_ok, Hand.count_ok]
  split
  · rename_i hl
    have st : HandStep h (.add k) true h' ∨ HandStep h (.remove k) true h' :=
      e.imp .add_ok .remove_ok
    rcases st with st | st
    · rw [(step_cell st l hl).1]; simp [hne]
    · rw [(step_cell st l hl).1]; simp [hne]
  · rfl

omit P in
/-- C09: `is_hand_piece` and `all_hand_pieces` name exactly the seven hand kinds. -/
theorem C09_hand_pieces :
    (∀ k, Hand.is_hand_piece k = true ↔ k.InHand) ∧
    ∃ l, Hand.all_hand_pieces = .ok l ∧ (∀ k, k ∈ l ↔ k.InHand) ∧ l.Nodup ∧
      l.length = Hand.NUM_HAND_PIECES := by
  refine ⟨by decide +kernel, [.Pawn, .Lance, .Knight, .Silver, .Gold, .Bishop, .Rook],
    by decide +kernel, by decide +kernel, by decide, rfl⟩

/-- Non-vacuity: add two pawns, be refused a king, remove one pawn. -/
example : ∃ l h, HandHistory l h ∧ additions .Pawn l = 2 ∧ removals .Pawn l = 1 ∧
    (∀ p, p <:+ l → additions .Pawn p ≤ removals .Pawn p + 255) := by
  have h1 := HandHistory.nil.cons (HandStep.add_ok (k := .Pawn)
    (by rw [Hand.added_ok, dif_pos (by trivial)]))
  have h2 := h1.cons (HandStep.add_ok (k := .Pawn)
    (by rw [Hand.added_ok, dif_pos (by trivial)]))
  have h3 := h2.cons (HandStep.add_none (k := .King)
    (by rw [Hand.added_ok, dif_neg (by exact id)]))
  have h4 := h3.cons (HandStep.remove_ok (k := .Pawn)
    (by rw [Hand.removed_ok, dif_pos (by trivial), if_neg (by decide)]))
  refine ⟨_, _, h4, by decide, by decide, fun p hp => ?_⟩
  have := hp.length_le
  have : additions .Pawn p ≤ p.length := List.count_le_length
  simp at *; omega

/-! ### C10 -/

/-- C10: `added` increments modulo 256, for every hand. -/
theorem C10_added (h h' : Hand) (k : PieceKind) (n : U8) (hc : h.count k = .ok (some n))
    (ha : h.added k = .ok (some h')) :
    ∃ m, h'.count k = .ok (some m) ∧ m.toNat = (n.toNat + 1) % 256 := by
  rw [Hand.count_ok] at hc
  split at hc
  · rename_i hk
    simp only [Res.ok.injEq, Option.some.injEq] at hc; subst hc
    rw [Hand.count_ok, dif_pos hk]
    refine ⟨_, rfl, ?_⟩
    rw [(step_cell (.add_ok ha) k hk).1, if_pos rfl, BitVec.toNat_add]; simp
  · cases hc

/-- C10: removing after adding restores the hand exactly, unless the count was 255. -/
theorem C10_remove_added (h h' : Hand) (k : PieceKind) (n : U8) (hc : h.count k = .ok (some n))
    (ha : h.added k = .ok (some h')) :
    h'.removed k = .ok (if n.toNat = 255 then none else some h) := by
  rw [Hand.count_ok] at hc
  split at hc
  · rename_i hk
    simp only [Res.ok.injEq, Option.some.injEq] at hc; subst hc
    rw [Hand.added_ok, dif_pos hk] at ha
    simp only [Res.ok.injEq, Option.some.injEq] at ha; subst ha
    have hlt := (h.cell k hk).isLt
    have e1 : (h.cell k hk + 1).toNat = ((h.cell k hk).toNat + 1) % 256 := by
      rw [BitVec.toNat_add]; simp
    rw [Hand.removed_ok, dif_pos hk, Hand.cell_setCell, if_pos rfl, e1]
    by_cases h255 : (h.cell k hk).toNat = 255
    · rw [if_pos (by omega), if_pos h255]
    · rw [if_neg (by omega), if_neg h255, Hand.setCell_setCell, Hand.setCell_self]
      rw [BitVec.add_sub_cancel]
  · cases hc

/-- C10: adding after a successful removal always restores the hand. -/
theorem C10_add_removed (h h' : Hand) (k : PieceKind) (hr : h.removed k = .ok (some h')) :
    h'.added k = .ok (some h) := by
  rw [Hand.removed_ok] at hr
  split at hr
  · rename_i hk
    split at hr
    · cases hr
    · simp only [Res.ok.injEq, Option.some.injEq] at hr; subst hr
      rw [Hand.added_ok, dif_pos hk, Hand.cell_setCell, if_pos rfl, Hand.setCell_setCell,
        Hand.setCell_self]
      rw [BitVec.sub_add_cancel]
  · cases hr

/-- C10: the C wrappers report `false` exactly when the method returns `None`, and then
leave the hand unmodified; `Hand_count` is the count, or 0. -/
theorem C10_wrappers (h : Hand) (k : PieceKind) :
    (match h.added k with
     | .ok (some h') => h.Hand_add k = .ok (h', true)
     | .ok none => h.Hand_add k = .ok (h, false)
     | _ => False) ∧
    (match h.removed k with
     | .ok (some h') => h.Hand_remove k = .ok (h', true)
     | .ok none => h.Hand_remove k = .ok (h, false)
     | _ => False) ∧
    (match h.count k with
     | .ok (some n) => h.Hand_count k = .ok n
     | .ok none => h.Hand_count k = .ok 0
     | _ => False) := by
  refine ⟨?_, ?_, ?_⟩
  · unfold Hand.Hand_add; rw [Hand.added_ok, Res.bind_ok]
    generalize (if hk : k.InHand then _ else _ : Option Hand) = o; cases o <;> rfl
  · unfold Hand.Hand_remove; rw [Hand.removed_ok, Res.bind_ok]
    generalize (if hk : k.InHand then _ else _ : Option Hand) = o; cases o <;> rfl
  · unfold Hand.Hand_count; rw [Hand.count_ok, Res.bind_ok]
    generalize (if hk : k.InHand then _ else _ : Option U8) = o; cases o <;> rfl

/-- Non-vacuity of the wrap-around: 255 pawns plus one is none. -/
example : ∃ h h' : Hand, h.count .Pawn = .ok (some 255) ∧ h.added .Pawn = .ok (some h') ∧
    h'.count .Pawn = .ok (some 0) ∧ h'.removed .Pawn = .ok none := by
  have hk : PieceKind.Pawn.InHand := trivial
  have hc : (⟨Vector.set (Vector.replicate 8 0) 0 255⟩ : Hand).cell .Pawn hk = 255 := rfl
  refine ⟨⟨Vector.set (Vector.replicate 8 0) 0 255⟩, _, by rw [Hand.count_ok, dif_pos hk]; rfl,
    by rw [Hand.added_ok, dif_pos hk], ?_, ?_⟩
  · rw [Hand.count_ok, dif_pos hk, Hand.cell_setCell, if_pos rfl, hc]; rfl
  · rw [Hand.removed_ok, dif_pos hk, Hand.cell_setCell, if_pos rfl, hc, if_pos (by rfl)]

/-! ### C11 -/

private theorem history_7 {l : List (HandOp × Bool)} {h : Hand} (hist : HandHistory l h) :
    h.cells[7] = 0 := by
  induction hist with
  | nil => rfl
  | cons _ st ih =>
    cases st with
    | add_ok e =>
      rw [Hand.added_ok] at e
      split at e
      · simp only [Res.ok.injEq, Option.some.injEq] at e; subst e; rw [Hand.setCell_7, ih]
      · cases e
    | add_none e => exact ih
    | remove_ok e =>
      rw [Hand.removed_ok] at e
      split at e
      · split at e
        · cases e
        · simp only [Res.ok.injEq, Option.some.injEq] at e; subst e; rw [Hand.setCell_7, ih]
      · cases e
    | remove_none e => exact ih

/-- C11: hands obtained from any two histories compare equal iff all counts agree. -/
theorem C11_eq_iff (l l' : List (HandOp × Bool)) (h h' : Hand) (hist : HandHistory l h)
    (hist' : HandHistory l' h') :
    h.eq h' = true ↔ ∀ k : PieceKind, h.count k = h'.count k := by
  rw [Hand.eq_iff]
  refine ⟨fun e k => by rw [e], fun hc => Hand.ext_cells (fun k hk => ?_) ?_⟩
  · have := hc k
    rw [Hand.count_ok, Hand.count_ok, dif_pos hk, dif_pos hk] at this
    simpa using this
  · rw [history_7 hist, history_7 hist']

/-- C11: only the seven hand kinds need comparing. -/
theorem C11_seven (l l' : List (HandOp × Bool)) (h h' : Hand) (hist : HandHistory l h)
    (hist' : HandHistory l' h') :
    h.eq h' = true ↔ ∀ k ∈ [PieceKind.Pawn, .Lance, .Knight, .Silver, .Gold, .Bishop, .Rook],
      h.count k = h'.count k := by
  rw [C11_eq_iff l l' h h' hist hist']
  refine ⟨fun e k _ => e k, fun e k => ?_⟩
  by_cases hk : k.InHand
  · apply e; revert k; decide
  · rw [Hand.count_ok, Hand.count_ok, dif_neg hk, dif_neg hk]

/-- Non-vacuity: the empty history and add-then-remove give equal hands. -/
example : ∃ l h, l ≠ [] ∧ HandHistory l h ∧ h.eq Hand.new = true := by
  have h1 := HandHistory.nil.cons (HandStep.add_ok (k := .Rook)
    (by rw [Hand.added_ok, dif_pos (by trivial)]))
  have h2 := h1.cons (HandStep.remove_ok (k := .Rook)
    (by rw [Hand.removed_ok, dif_pos (by trivial), if_neg (by decide)]))
  exact ⟨_, _, by simp, h2, by rw [Hand.eq_iff]; decide⟩

end ShogiCore
