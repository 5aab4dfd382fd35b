import Verif.Lemmas.Startpos

set_option linter.unusedSectionVars false

namespace ShogiCore

/-! Sums over the first `n` numbers. -/

/-- `f 0 + ... + f (n - 1)`. -/
def sumTo (f : Nat → Nat) : Nat → Nat
  | 0 => 0
  | n + 1 => sumTo f n + f n

theorem sumTo_congr {f g : Nat → Nat} {n : Nat} (h : ∀ i < n, f i = g i) : sumTo f n = sumTo g n := by
  induction n with
  | zero => rfl
  | succ n ih => rw [sumTo, sumTo, ih (fun i hi => h i (by omega)), h n (by omega)]

/-- Changing one summand. -/
theorem sumTo_update {f g : Nat → Nat} {n j : Nat} (hj : j < n) (h : ∀ i < n, i ≠ j → f i = g i) :
    sumTo f n + g j = sumTo g n + f j := by
  induction n with
  | zero => omega
  | succ n ih =>
    rw [sumTo, sumTo]
    by_cases e : j = n
    · subst e
      rw [sumTo_congr (f := f) (g := g) (fun i hi => h i (by omega) (by omega))]; omega
    · have := ih (by omega) (fun i hi => h i (by omega))
      have := h n (by omega) (by omega)
      omega

theorem sumTo_filter (f : Nat → Bool) (n : Nat) :
    ((List.range n).filter f).length = sumTo (fun i => if f i then 1 else 0) n := by
  induction n with
  | zero => rfl
  | succ n ih =>
    rw [List.range_succ, List.filter_append, List.length_append, ih, sumTo]
    cases h : f n <;> simp [h]

namespace PartialPosition

/-- 1 for a piece whose unpromoted form is `k`. -/
def weight (k : PieceKind) : Option Piece → Nat
  | none => 0
  | some x => if (kindOfPiece x).base = k then 1 else 0

theorem kindOfPiece_mk (k : PieceKind) (c : Color) : kindOfPiece (Piece.mk' k c) = k := by
  have : ∀ k c, kindOfPiece (Piece.mk' k c) = k := by decide +kernel
  exact this k c

theorem weight_none (k : PieceKind) : weight k none = 0 := rfl

@[simp] theorem weight_mk (k l : PieceKind) (c : Color) :
    weight k (some (Piece.mk' l c)) = if l.base = k then 1 else 0 := by
  rw [weight, kindOfPiece_mk]

/-- Count on the board. -/
def boardCount (p : PartialPosition) (k : PieceKind) : Nat := sumTo (fun i => weight k (p.cell i)) 81

/-- Count in a hand. -/
def handCount (h : Hand) (k : PieceKind) : Nat := if hk : k.InHand then (h.cell k hk).toNat else 0

/-- Count everywhere. -/
def total (p : PartialPosition) (k : PieceKind) : Nat :=
  p.boardCount k + handCount (p.handOf .Black) k + handCount (p.handOf .White) k

theorem handCount_bump (h : Hand) (k l : PieceKind) (hl : l.InHand) (hb : (h.cell l hl).toNat < 255) :
    handCount (h.bump l hl) k = handCount h k + if l = k then 1 else 0 := by
  unfold handCount
  by_cases hk : k.InHand
  · simp only [dif_pos hk, Hand.bump, Hand.cell_setCell]
    by_cases e : l = k
    · subst e; simp only [if_true, BitVec.toNat_add]; simp; omega
    · simp [e]
  · simp only [dif_neg hk]
    rw [if_neg]; rintro rfl; exact hk hl

theorem handCount_drop (h : Hand) (k l : PieceKind) (hl : l.InHand) (hb : (h.cell l hl).toNat ≠ 0) :
    handCount (h.drop l hl) k + (if l = k then 1 else 0) = handCount h k := by
  unfold handCount
  by_cases hk : k.InHand
  · simp only [dif_pos hk, Hand.drop, Hand.cell_setCell]
    by_cases e : l = k
    · subst e; simp only [if_true, BitVec.toNat_sub]; simp; omega
    · simp [e]
  · simp only [dif_neg hk]
    rw [if_neg]; rintro rfl; exact hk hl

theorem base_inHand_base (l : PieceKind) : l.base.base = l.base := by cases l <;> rfl
theorem promote_base {k k' : PieceKind} (h : k.promote = some k') : k'.base = k.base := by
  revert k k'; decide +kernel
theorem inHand_base {k : PieceKind} (h : k.InHand) : k.base = k := by revert k; decide

variable [P : Profile]

/-- One accepted move changes no total. -/
theorem total_eff {p q : PartialPosition} {m : Move} (hm : m.Valid) (h : p.Eff m q)
    (hb : ∀ c k hk, ((p.handOf c).cell k hk).toNat < 255) (k : PieceKind) : q.total k = p.total k := by
  have hbody := h.body
  cases m with
  | Normal s t pr =>
    obtain ⟨j, j', h1, h2, hst, h3, _, h5⟩ := hbody
    have hs := Square.idx0_lt hm.1
    have ht := Square.idx0_lt hm.2
    have hjj : j'.base = j.base := by
      cases pr
      · simp at h2; rw [h2]
      · simp at h2; exact promote_base h2
    -- first vacate, then occupy
    have e1 : sumTo (fun i => if i = s.idx0 then 0 else weight k (p.cell i)) 81 +
        weight k (p.cell s.idx0) = p.boardCount k + 0 := by
      have := sumTo_update (f := fun i => if i = s.idx0 then 0 else weight k (p.cell i))
        (g := fun i => weight k (p.cell i)) hs (by intro i _ hi; simp [hi])
      simpa [boardCount] using this
    have e2 : q.boardCount k + weight k (p.cell t.idx0) =
        sumTo (fun i => if i = s.idx0 then 0 else weight k (p.cell i)) 81 +
          weight k (q.cell t.idx0) := by
      have := sumTo_update (f := fun i => weight k (q.cell i))
        (g := fun i => if i = s.idx0 then 0 else weight k (p.cell i)) ht (by
          intro i hi hne
          simp only [h3 i hi, if_neg hne]
          split <;> simp_all [weight])
      simp only [if_neg (Ne.symm hst)] at this
      exact this
    rw [h1, weight_mk] at e1
    rw [h3 _ ht, if_pos rfl, weight_mk, hjj] at e2
    unfold total
    rcases h5 with ⟨h5, h6⟩ | ⟨l, hl, h5, h6⟩
    · rw [h5, weight_none] at e2
      rw [h6, h6]; omega
    · rw [h5, weight_mk] at e2
      have hc := handCount_bump (p.handOf p.side) k l.base hl (hb _ _ _)
      rw [h6, h6]
      cases hside : p.side <;> rw [hside] at hc <;> simp at hc ⊢ <;> omega
  | Drop x t =>
    obtain ⟨j, hj, rfl, h1, h2, h3, _, h5⟩ := hbody
    have ht := Square.idx0_lt hm.2
    have e2 : q.boardCount k + weight k (p.cell t.idx0) =
        p.boardCount k + weight k (q.cell t.idx0) :=
      sumTo_update (f := fun i => weight k (q.cell i)) (g := fun i => weight k (p.cell i)) ht
        (by intro i hi hne; simp only [h3 i hi, if_neg hne])
    rw [h1, h3 _ ht, if_pos rfl, weight_mk, inHand_base hj] at e2
    rw [weight_none] at e2
    have hc := handCount_drop (p.handOf p.side) k j hj h2
    unfold total
    rw [h5, h5]
    cases hside : p.side <;> rw [hside] at hc <;> simp at hc ⊢ <;> omega

theorem total_sp0 (k : PieceKind) : sp0.total k = pieceSupply k := by
  have : ∀ k, sp0.total k = pieceSupply k := by decide +kernel
  exact this k

omit P in
theorem pieceSupply_le (k : PieceKind) : pieceSupply k ≤ 18 := by cases k <;> decide

omit P in
theorem cell_le_total (p : PartialPosition) (c : Color) (k : PieceKind) (hk : k.InHand) :
    ((p.handOf c).cell k hk).toNat ≤ p.total k := by
  have : handCount (p.handOf c) k = ((p.handOf c).cell k hk).toNat := by simp [handCount, hk]
  unfold total
  cases c <;> omega

/-- Totals in games from a position whose totals are small. -/
theorem total_from {p q : PartialPosition} {l : List Move} (hp : p.Ok)
    (hs : ∀ k, p.total k < 255) (h : Game.From p l q) (k : PieceKind) : q.total k = p.total k := by
  induction h generalizing k with
  | start => rfl
  | accept h hm e ih =>
    have ok := from_ok hp h
    rcases make_move_ok ok hm with ⟨_, q', e', he⟩ | ⟨_, e'⟩ <;> rw [e'] at e <;> cases e
    rw [total_eff hm he _ k, ih]
    intro c j hj
    exact Nat.lt_of_le_of_lt (cell_le_total _ c j hj) (by rw [ih]; exact hs j)
  | reject h hm e ih =>
    have ok := from_ok hp h
    rcases make_move_ok ok hm with ⟨_, q', e', he⟩ | ⟨_, e'⟩ <;> rw [e'] at e <;> cases e
    exact ih k

/-! ### Kings -/

/-- The cache is right and there is exactly one king of colour `c`. -/
def KingOk (p : PartialPosition) (c : Color) : Prop :=
  ∃ s : Square, s.Valid ∧ p.kingOf c = .ofOption (some s) ∧
    ∀ i < 81, p.cell i = some (Piece.mk' .King c) ↔ i = s.idx0

theorem promote_ne_king {k k' : PieceKind} (h : k.promote = some k') : k ≠ .King ∧ k' ≠ .King := by
  revert k k'; decide +kernel

theorem kingOk_eff {p q : PartialPosition} {m : Move} (hm : m.Valid) (h : p.Eff m q) (c : Color)
    (hk : p.KingOk c) (hacc : p.Acc m) : q.KingOk c := by
  have hbody := h.body
  obtain ⟨ks, hks, hcache, huniq⟩ := hk
  have hksi := Square.idx0_lt hks
  have hkcell := (huniq _ hksi).2 rfl
  cases m with
  | Normal s t pr =>
    obtain ⟨j, j', h1, h2, hst, h3, h4, _⟩ := hbody
    have hs := Square.idx0_lt hm.1
    have ht := Square.idx0_lt hm.2
    have htk : p.cell t.idx0 ≠ some (Piece.mk' .King c) := by
      obtain ⟨_, _, e | ⟨l, hl, e⟩, _⟩ := hacc
      · rw [e]; simp
      · rw [e]; intro e'; exact hl (Piece.mk'_inj (Option.some.inj e')).1
    have htks : t.idx0 ≠ ks.idx0 := fun e => htk ((huniq _ ht).2 e)
    by_cases hkm : j = .King ∧ c = p.side
    · obtain ⟨rfl, rfl⟩ := hkm
      have hj' : j' = .King := by
        cases pr
        · simpa using h2
        · simp at h2; exact absurd rfl (promote_ne_king h2).1
      subst hj'
      have hsks := (huniq _ hs).1 h1
      refine ⟨t, hm.2, by rw [h4, if_pos ⟨rfl, rfl⟩], fun i hi => ?_⟩
      rw [h3 i hi]
      by_cases e : i = t.idx0
      · simp [e]
      · rw [if_neg e]
        by_cases e' : i = s.idx0
        · simp [e', hst]
        · rw [if_neg e', huniq i hi, ← hsks]; simp [e, e']
    · have hj' : ¬ (j' = .King ∧ c = p.side) := by
        rintro ⟨rfl, hc⟩
        apply hkm
        refine ⟨?_, hc⟩
        cases pr
        · simpa using h2.symm
        · simp at h2; exact absurd rfl (promote_ne_king h2).2
      refine ⟨ks, hks, by rw [h4, if_neg hj', hcache], fun i hi => ?_⟩
      rw [h3 i hi]
      by_cases e : i = t.idx0
      · rw [if_pos e]
        constructor
        · intro e'
          obtain ⟨a, b⟩ := Piece.mk'_inj (Option.some.inj e'); exact absurd ⟨a, b.symm⟩ hj'
        · intro e'; exact absurd (e.symm.trans e') htks
      · rw [if_neg e]
        by_cases e' : i = s.idx0
        · rw [if_pos e']
          constructor
          · intro h; cases h
          · intro e''
            rw [← e', e'', hkcell] at h1
            obtain ⟨a, b⟩ := Piece.mk'_inj (Option.some.inj h1)
            exact absurd ⟨a.symm, b⟩ hkm
        · rw [if_neg e']; exact huniq i hi
  | Drop x t =>
    obtain ⟨j, hj, rfl, h1, h2, h3, h4, _⟩ := hbody
    refine ⟨ks, hks, by rw [h4, hcache], fun i hi => ?_⟩
    rw [h3 i hi]
    by_cases e : i = t.idx0
    · rw [if_pos e]
      constructor
      · intro e'
        have := (Piece.mk'_inj (Option.some.inj e')).1
        subst this; exact hj.elim
      · intro e'
        rw [← e, e', hkcell] at h1; cases h1
    · rw [if_neg e]; exact huniq i hi

theorem kingOk_sp0 (c : Color) : sp0.KingOk c := by
  have : (sp0.kingOf .Black = .ofOption (some (Square.at 5 9)) ∧
      ∀ i < 81, sp0.cell i = some (Piece.mk' .King .Black) ↔ i = (Square.at 5 9).idx0) ∧
    (sp0.kingOf .White = .ofOption (some (Square.at 5 1)) ∧
      ∀ i < 81, sp0.cell i = some (Piece.mk' .King .White) ↔ i = (Square.at 5 1).idx0) := by
    decide +kernel
  cases c
  · exact ⟨_, by decide, this.1⟩
  · exact ⟨_, by decide, this.2⟩

theorem kingOk_from {p q : PartialPosition} {l : List Move} (hp : p.Ok) {c : Color}
    (hk : p.KingOk c) (h : Game.From p l q) : q.KingOk c := by
  induction h with
  | start => exact hk
  | accept h hm e ih =>
    rcases make_move_ok (from_ok hp h) hm with ⟨ha, q', e', he⟩ | ⟨_, e'⟩ <;> rw [e'] at e <;> cases e
    exact kingOk_eff hm he c ih ha
  | reject h hm e ih =>
    rcases make_move_ok (from_ok hp h) hm with ⟨_, q', e', he⟩ | ⟨_, e'⟩ <;> rw [e'] at e <;> cases e
    exact ih

end PartialPosition
end ShogiCore
