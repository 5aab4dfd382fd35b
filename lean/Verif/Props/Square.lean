import Verif.Lemmas.Square

/- C01-C05: squares and generated constants. -/

namespace ShogiCore
open Square

set_option linter.unusedSectionVars false

section
variable [P : Profile]

/-! ### C01 -/

private theorem new_none_aux (f r : U8) (h : ¬ (1 ≤ f.toNat ∧ f.toNat ≤ 9 ∧ 1 ≤ r.toNat ∧ r.toNat ≤ 9)) :
    9 ≤ (f - 1).toNat ∨ 9 ≤ (r - 1).toNat := by
  have hf := f.isLt
  have hr := r.isLt
  rw [BitVec.toNat_sub, BitVec.toNat_sub]
  simp only [BitVec.ofNat_eq_ofNat, BitVec.toNat_ofNat]
  omega

private theorem new_some_aux (f : U8) (h : 1 ≤ f.toNat ∧ f.toNat ≤ 9) : ¬ 9 ≤ (f - 1).toNat := by
  rw [BitVec.toNat_sub]; simp only [BitVec.ofNat_eq_ofNat, BitVec.toNat_ofNat]; omega

private theorem new_table : ∀ d : Build, ∀ f < 9, ∀ r < 9,
    @Square.new ⟨d⟩ (BitVec.ofNat 8 (f + 1)) (BitVec.ofNat 8 (r + 1)) =
      .ok (some (ofIdx (9 * f + r))) := by
  decide +kernel

theorem Square.new_ok (f r : U8) (h : 1 ≤ f.toNat ∧ f.toNat ≤ 9 ∧ 1 ≤ r.toNat ∧ r.toNat ≤ 9) :
    Square.new f r = .ok (some (ofIdx (9 * f.toNat + r.toNat - 10))) := by
  have := profile_ind (motive := fun P => @Square.new P (BitVec.ofNat 8 (f.toNat - 1 + 1))
    (BitVec.ofNat 8 (r.toNat - 1 + 1)) = _)
    (fun d => new_table d (f.toNat - 1) (by omega) (r.toNat - 1) (by omega)) P
  rw [Nat.sub_add_cancel h.1, Nat.sub_add_cancel h.2.2.1] at this
  simp only [BitVec.ofNat_toNat, BitVec.setWidth_eq] at this
  rw [this]; congr 3; omega

/-- C01: `Square::new` accepts exactly 1..=9 × 1..=9; the result has exactly the given
file and rank and the documented index. -/
theorem C01_new (file rank : U8) :
    ((1 ≤ file.toNat ∧ file.toNat ≤ 9 ∧ 1 ≤ rank.toNat ∧ rank.toNat ≤ 9) →
      ∃ s, Square.new file rank = .ok (some s) ∧ s.Valid ∧
        s.file = .ok file ∧ s.rank = .ok rank ∧
        ∃ i, s.index = .ok i ∧ i.toNat + 9 = 9 * file.toNat + rank.toNat) ∧
    (¬ (1 ≤ file.toNat ∧ file.toNat ≤ 9 ∧ 1 ≤ rank.toNat ∧ rank.toNat ≤ 9) →
      Square.new file rank = .ok none) := by
  refine ⟨fun h => ?_, fun h => ?_⟩
  · have hi : 9 * file.toNat + rank.toNat - 10 < 81 := by omega
    have hv := ofIdx_valid hi
    refine ⟨_, Square.new_ok _ _ h, hv, ?_, ?_, _, index_ok hv, ?_⟩
    · rw [file_ofIdx hi, show (9 * file.toNat + rank.toNat - 10) / 9 + 1 = file.toNat by omega]
      simp
    · rw [rank_ofIdx hi, show (9 * file.toNat + rank.toNat - 10) % 9 + 1 = rank.toNat by omega]
      simp
    · simp only [ofIdx, BitVec.toNat_ofNat]; omega
  · unfold Square.new; rw [if_pos (new_none_aux _ _ h)]

/-- C01: every square is `new(file(), rank())` of itself. -/
theorem C01_surjective (s : Square) (h : s.Valid) :
    ∃ f r, s.file = .ok f ∧ s.rank = .ok r ∧ 1 ≤ f.toNat ∧ f.toNat ≤ 9 ∧ 1 ≤ r.toNat ∧
      r.toNat ≤ 9 ∧ Square.new f r = .ok (some s) := by
  have hi := idx0_lt h
  have e1 : (BitVec.ofNat 8 (s.idx0 / 9 + 1)).toNat = s.idx0 / 9 + 1 := by
    simp only [BitVec.toNat_ofNat]; omega
  have e2 : (BitVec.ofNat 8 (s.idx0 % 9 + 1)).toNat = s.idx0 % 9 + 1 := by
    simp only [BitVec.toNat_ofNat]; omega
  refine ⟨_, _, file_ok h, rank_ok h, by omega, by omega, by omega, by omega, ?_⟩
  rw [Square.new_ok _ _ (by omega), e1, e2,
    show 9 * (s.idx0 / 9 + 1) + (s.idx0 % 9 + 1) - 10 = s.idx0 by omega, ofIdx_idx0 h]

/-- C01: squares with equal coordinates are equal. -/
theorem C01_injective (s t : Square) (hs : s.Valid) (ht : t.Valid)
    (hf : s.file = t.file) (hr : s.rank = t.rank) : s = t := by
  obtain ⟨f, r, h1, h2, _, _, _, _, h3⟩ := C01_surjective s hs
  obtain ⟨f', r', h1', h2', _, _, _, _, h3'⟩ := C01_surjective t ht
  rw [h1, h1'] at hf; rw [h2, h2'] at hr
  cases hf; cases hr
  rw [h3] at h3'; cases h3'; rfl

/-- Non-vacuity: 7g is a square with file 7 and rank 7. -/
example : ∃ s, Square.new 7 7 = .ok (some s) ∧ s.Valid ∧ s.file = .ok 7 ∧ s.rank = .ok 7 :=
  let ⟨s, h1, h2, h3, h4, _⟩ := (C01_new 7 7).1 (by decide)
  ⟨s, h1, h2, h3, h4⟩

/-! ### C02 -/

omit P in
/-- C02: `from_u8` accepts exactly 1..=81. -/
theorem C02_from_u8_iff (v : U8) (s : Square) :
    Square.from_u8 v = some s ↔ (1 ≤ v.toNat ∧ v.toNat ≤ 81) ∧ s = ⟨v⟩ := by
  have hv := v.isLt
  have e : (cast 32 v : U32).toNat = v.toNat := by
    simp only [cast, BitVec.toNat_setWidth]; omega
  unfold Square.from_u8 OptionSquare.toOption
  rw [e]
  by_cases h : v.toNat ≤ 81
  · by_cases h0 : v = 0
    · subst h0; simp
    · have : v.toNat ≠ 0 := fun h => h0 (BitVec.eq_of_toNat_eq h)
      simp only [h, h0, if_true, if_false, Option.some.injEq, and_true]
      exact ⟨fun e => ⟨by omega, e.symm⟩, fun e => e.2.symm⟩
  · simp [h]

/-- C02: the byte round-trips, both ways, and `array_index` is `index - 1 < 81`. -/
theorem C02_roundtrip (s : Square) (h : s.Valid) :
    ∃ i a, s.index = .ok i ∧ Square.from_u8 i = some s ∧
      s.array_index = .ok a ∧ a.toNat + 1 = i.toNat ∧ a.toNat < Square.NUM := by
  refine ⟨_, _, index_ok h, (C02_from_u8_iff _ _).2 ⟨h, rfl⟩, array_index_ok h, ?_, ?_⟩ <;>
    rw [usize_toNat (Nat.lt_trans (idx0_lt h) (by decide))]
  · unfold Valid idx0 at *; omega
  · exact idx0_lt h

/-- C02: a byte accepted by `from_u8` is the index of the result. -/
theorem C02_from_u8_index (v : U8) (s : Square) (h : Square.from_u8 v = some s) :
    s.Valid ∧ s.index = .ok v := by
  obtain ⟨h1, rfl⟩ := (C02_from_u8_iff v s).1 h
  exact ⟨h1, index_ok h1⟩

private theorem all_eq : Square.all = .ok ((List.range 81).map ofIdx) := by decide +kernel

/-- C02: `Square::all` yields exactly the squares, once each, in ascending index order. -/
theorem C02_all : ∃ l, Square.all = .ok l ∧ (∀ s : Square, s ∈ l ↔ s.Valid) ∧
    l.Nodup ∧ l.Pairwise (fun s t => s.val.toNat < t.val.toNat) := by
  have hp : ((List.range 81).map ofIdx).Pairwise (fun s t => s.val.toNat < t.val.toNat) := by
    decide +kernel
  refine ⟨_, all_eq, fun s => ⟨fun h => ?_, fun h => ?_⟩, ?_, hp⟩
  · obtain ⟨i, hi, rfl⟩ := List.mem_map.1 h
    exact ofIdx_valid (List.mem_range.1 hi)
  · exact List.mem_map.2 ⟨s.idx0, List.mem_range.2 (idx0_lt h), ofIdx_idx0 h⟩
  · exact hp.imp (by rintro a b h rfl; omega)

/-- Non-vacuity: 81 is the last accepted byte. -/
example : Square.from_u8 81 = some ⟨81⟩ ∧ Square.from_u8 82 = none ∧ Square.from_u8 0 = none := by
  decide

/-! ### C03 -/

omit P in
private theorem in0to8_table : ∀ f : Nat, f < 10 → 1 ≤ f → ∀ i : Fin 256,
    in0to8 ((BitVec.ofNat 8 f + BitVec.ofNat 8 i) - 1) =
      (decide (1 ≤ (f : Int) + (BitVec.ofNat 8 i).toInt) &&
       decide ((f : Int) + (BitVec.ofNat 8 i).toInt ≤ 9)) := by decide +kernel

omit P in
private theorem m1_table : ∀ f : Nat, f < 10 → 1 ≤ f → ∀ i : Fin 256,
    1 ≤ (f : Int) + (BitVec.ofNat 8 i).toInt → (f : Int) + (BitVec.ofNat 8 i).toInt ≤ 9 →
      ((BitVec.ofNat 8 f + BitVec.ofNat 8 i) - 1 : I8) =
        BitVec.ofNat 8 (((f : Int) + (BitVec.ofNat 8 i).toInt).toNat - 1) := by decide +kernel

omit P in
private theorem shift_tail_table : ∀ d : Build, ∀ f < 9, ∀ r < 9,
    (do let a ← @cmuls ⟨d⟩ 8 (BitVec.ofNat 8 f) 9
        let b ← @cadds ⟨d⟩ 8 a (BitVec.ofNat 8 r)
        let c ← @cadds ⟨d⟩ 8 b 1
        return some (← from_u8_unchecked c) : Res (Option Square)) =
      .ok (some (ofIdx (9 * f + r))) := by decide +kernel

/-- The result of `shift`, computed in unbounded integers. -/
theorem Square.shift_ok (s : Square) (h : s.Valid) (df dr : I8) :
    s.shift df dr =
      .ok (if OnBoard (s.idx0 / 9 + 1 + df.toInt) (s.idx0 % 9 + 1 + dr.toInt) then
        some (ofIdx (9 * ((s.idx0 / 9 + 1 + df.toInt).toNat - 1) +
          ((s.idx0 % 9 + 1 + dr.toInt).toNat - 1)))
      else none) := by
  have hi := idx0_lt h
  generalize hF : s.idx0 / 9 + 1 = F
  generalize hR : s.idx0 % 9 + 1 = R
  have eF : ((s.idx0 : Int) / 9 + 1) = (F : Int) := by omega
  have eR : ((s.idx0 : Int) % 9 + 1) = (R : Int) := by omega
  rw [eF, eR]
  have tf := in0to8_table F (by omega) (by omega) ⟨df.toNat, df.isLt⟩
  have tr := in0to8_table R (by omega) (by omega) ⟨dr.toNat, dr.isLt⟩
  have mf := m1_table F (by omega) (by omega) ⟨df.toNat, df.isLt⟩
  have mr := m1_table R (by omega) (by omega) ⟨dr.toNat, dr.isLt⟩
  simp only [BitVec.ofNat_toNat, BitVec.setWidth_eq] at tf tr mf mr
  unfold Square.shift
  simp only [sanity_check_ok h, file_ok h, rank_ok h, Res.bind_ok, tf, tr, hF, hR]
  by_cases hon : OnBoard (F + df.toInt) (R + dr.toInt)
  · rw [if_pos hon]
    unfold OnBoard at hon
    obtain ⟨a, b, c, e⟩ := hon
    rw [mf a b, mr c e]
    simp only [a, b, c, e, decide_true, Bool.and_true, Bool.not_true, Bool.or_self,
      Bool.false_eq_true, if_false]
    exact profile_ind (motive := fun P => (do
        let a ← @cmuls P 8 (BitVec.ofNat 8 ((F + df.toInt).toNat - 1)) 9
        let b ← @cadds P 8 a (BitVec.ofNat 8 ((R + dr.toInt).toNat - 1))
        let c ← @cadds P 8 b 1
        return some (← from_u8_unchecked c) : Res (Option Square)) = _)
      (fun d => shift_tail_table d _ (by omega) _ (by omega)) P
  · rw [if_neg hon]
    have : (!(decide (1 ≤ (F : Int) + df.toInt) && decide ((F : Int) + df.toInt ≤ 9)) ||
        !(decide (1 ≤ (R : Int) + dr.toInt) && decide ((R : Int) + dr.toInt ≤ 9))) = true := by
      unfold OnBoard at hon
      simp only [Bool.or_eq_true, Bool.not_eq_true', Bool.and_eq_false_iff, decide_eq_false_iff_not]
      omega
    rw [if_pos this]; rfl

/-- C03: `shift` is translation in unbounded integers; off-board results are `None`. -/
theorem C03_shift (s : Square) (h : s.Valid) (df dr : I8) (f r : U8)
    (hf : s.file = .ok f) (hr : s.rank = .ok r) :
    (OnBoard (f.toNat + df.toInt) (r.toNat + dr.toInt) →
      ∃ t f' r', s.shift df dr = .ok (some t) ∧ t.Valid ∧ t.file = .ok f' ∧ t.rank = .ok r' ∧
        (f'.toNat : Int) = f.toNat + df.toInt ∧ (r'.toNat : Int) = r.toNat + dr.toInt) ∧
    (¬ OnBoard (f.toNat + df.toInt) (r.toNat + dr.toInt) → s.shift df dr = .ok none) := by
  have hi := idx0_lt h
  rw [file_ok h] at hf; rw [rank_ok h] at hr
  cases hf; cases hr
  have e1 : ((BitVec.ofNat 8 (s.idx0 / 9 + 1)).toNat : Int) = s.idx0 / 9 + 1 := by
    simp only [BitVec.toNat_ofNat]; omega
  have e2 : ((BitVec.ofNat 8 (s.idx0 % 9 + 1)).toNat : Int) = s.idx0 % 9 + 1 := by
    simp only [BitVec.toNat_ofNat]; omega
  rw [e1, e2, Square.shift_ok s h]
  refine ⟨fun hon => ?_, fun hon => by rw [if_neg hon]⟩
  rw [if_pos hon]
  unfold OnBoard at hon
  have hj : 9 * ((s.idx0 / 9 + 1 + df.toInt).toNat - 1) +
      ((s.idx0 % 9 + 1 + dr.toInt).toNat - 1) < 81 := by omega
  refine ⟨_, _, _, rfl, ofIdx_valid hj, file_ofIdx hj, rank_ofIdx hj, ?_, ?_⟩ <;>
    (simp only [BitVec.toNat_ofNat]; omega)

/-- Non-vacuity: 3c shifted by (-1, +3) is 2f; by (127, 0) it is off the board. -/
example : Square.shift (ofIdx 20) (-1) 3 = .ok (some (ofIdx 14)) ∧
    Square.shift (ofIdx 20) 127 0 = .ok none := by
  constructor
  · rw [Square.shift_ok _ (ofIdx_valid (by decide))]
    rw [if_pos (by unfold OnBoard; decide)]; decide
  · rw [Square.shift_ok _ (ofIdx_valid (by decide))]
    rw [if_neg (by unfold OnBoard; decide)]

/-! ### C04 -/

omit P in
private theorem flip_table : ∀ d : Build, ∀ i < 81,
    @flip ⟨d⟩ (ofIdx i) = .ok (ofIdx (80 - i)) := by decide +kernel

theorem Square.flip_ofIdx {i : Nat} (h : i < 81) : (ofIdx i).flip = .ok (ofIdx (80 - i)) :=
  profile_ind (motive := fun P => @flip P (ofIdx i) = _) (flip_table · i h) P

theorem Square.flip_ok {s : Square} (h : s.Valid) : s.flip = .ok (ofIdx (80 - s.idx0)) := by
  conv => lhs; rw [← ofIdx_idx0 h]
  exact flip_ofIdx (idx0_lt h)

/-- C04: `flip` is the 180-degree rotation (f, r) ↦ (10 - f, 10 - r). -/
theorem C04_flip_coords (s : Square) (h : s.Valid) (f r : U8)
    (hf : s.file = .ok f) (hr : s.rank = .ok r) :
    ∃ t f' r', s.flip = .ok t ∧ t.Valid ∧ t.file = .ok f' ∧ t.rank = .ok r' ∧
      f'.toNat + f.toNat = 10 ∧ r'.toNat + r.toNat = 10 := by
  have hi := idx0_lt h
  have hj : 80 - s.idx0 < 81 := by omega
  rw [file_ok h] at hf; rw [rank_ok h] at hr
  cases hf; cases hr
  refine ⟨_, _, _, flip_ok h, ofIdx_valid hj, file_ofIdx hj, rank_ofIdx hj, ?_, ?_⟩ <;>
    (simp only [BitVec.toNat_ofNat]; omega)

/-- C04: `flip` is an involution. -/
theorem C04_flip_involutive (s : Square) (h : s.Valid) : (s.flip >>= flip) = .ok s := by
  have hi := idx0_lt h
  rw [flip_ok h, Res.bind_ok, flip_ofIdx (by omega), show 80 - (80 - s.idx0) = s.idx0 by omega,
    ofIdx_idx0 h]

omit P in
private theorem relative_table : ∀ d : Build, ∀ i < 81,
    @relative_file ⟨d⟩ (ofIdx i) .Black = @file ⟨d⟩ (ofIdx i) ∧
    @relative_rank ⟨d⟩ (ofIdx i) .Black = @rank ⟨d⟩ (ofIdx i) ∧
    @relative_file ⟨d⟩ (ofIdx i) .White = (@flip ⟨d⟩ (ofIdx i) >>= @file ⟨d⟩) ∧
    @relative_rank ⟨d⟩ (ofIdx i) .White = (@flip ⟨d⟩ (ofIdx i) >>= @rank ⟨d⟩) := by
  decide +kernel

/-- C04: relative coordinates are the plain ones for Black and those of the flipped square
for White. -/
theorem C04_relative (s : Square) (h : s.Valid) :
    s.relative_file .Black = s.file ∧ s.relative_rank .Black = s.rank ∧
    s.relative_file .White = (s.flip >>= file) ∧ s.relative_rank .White = (s.flip >>= rank) := by
  have := profile_ind (motive := fun P =>
    @relative_file P (ofIdx s.idx0) .Black = @file P (ofIdx s.idx0) ∧
    @relative_rank P (ofIdx s.idx0) .Black = @rank P (ofIdx s.idx0) ∧
    @relative_file P (ofIdx s.idx0) .White = (@flip P (ofIdx s.idx0) >>= @file P) ∧
    @relative_rank P (ofIdx s.idx0) .White = (@flip P (ofIdx s.idx0) >>= @rank P))
    (relative_table · s.idx0 (idx0_lt h)) P
  rwa [ofIdx_idx0 h] at this

omit P in
private theorem new_relative_table : ∀ d : Build, ∀ f < 9, ∀ r < 9,
    @new_relative ⟨d⟩ (BitVec.ofNat 8 (f + 1)) (BitVec.ofNat 8 (r + 1)) .Black =
      .ok (some (ofIdx (9 * f + r))) ∧
    @new_relative ⟨d⟩ (BitVec.ofNat 8 (f + 1)) (BitVec.ofNat 8 (r + 1)) .White =
      .ok (some (ofIdx (80 - (9 * f + r)))) := by decide +kernel

theorem Square.new_relative_ok (f r : U8)
    (h : 1 ≤ f.toNat ∧ f.toNat ≤ 9 ∧ 1 ≤ r.toNat ∧ r.toNat ≤ 9) (c : Color) :
    new_relative f r c = .ok (some (ofIdx
      (match c with
       | .Black => 9 * f.toNat + r.toNat - 10
       | .White => 90 - (9 * f.toNat + r.toNat)))) := by
  have := profile_ind (motive := fun P =>
    @new_relative P (BitVec.ofNat 8 (f.toNat - 1 + 1)) (BitVec.ofNat 8 (r.toNat - 1 + 1)) .Black = _ ∧
    @new_relative P (BitVec.ofNat 8 (f.toNat - 1 + 1)) (BitVec.ofNat 8 (r.toNat - 1 + 1)) .White = _)
    (fun d => new_relative_table d (f.toNat - 1) (by omega) (r.toNat - 1) (by omega)) P
  rw [Nat.sub_add_cancel h.1, Nat.sub_add_cancel h.2.2.1] at this
  simp only [BitVec.ofNat_toNat, BitVec.setWidth_eq] at this
  cases c
  · rw [this.1]; congr 3; dsimp only; omega
  · rw [this.2]; congr 3; dsimp only; omega

/-- C04: `new_relative(f, r, c)` accepts exactly 1..=9 × 1..=9 and is the unique square
whose relative coordinates for `c` are `(f, r)`. -/
theorem C04_new_relative (f r : U8) (c : Color) :
    ((1 ≤ f.toNat ∧ f.toNat ≤ 9 ∧ 1 ≤ r.toNat ∧ r.toNat ≤ 9) →
      ∃ s, new_relative f r c = .ok (some s) ∧ s.Valid ∧ s.relative_file c = .ok f ∧
        s.relative_rank c = .ok r ∧
        ∀ t : Square, t.Valid → t.relative_file c = .ok f → t.relative_rank c = .ok r → t = s) ∧
    (¬ (1 ≤ f.toNat ∧ f.toNat ≤ 9 ∧ 1 ≤ r.toNat ∧ r.toNat ≤ 9) →
      new_relative f r c = .ok none) := by
  -- relative coordinates as numbers
  have rel : ∀ t : Square, t.Valid →
      t.relative_file c = .ok (BitVec.ofNat 8 (match c with
        | .Black => t.idx0 / 9 + 1
        | .White => (80 - t.idx0) / 9 + 1)) ∧
      t.relative_rank c = .ok (BitVec.ofNat 8 (match c with
        | .Black => t.idx0 % 9 + 1
        | .White => (80 - t.idx0) % 9 + 1)) := by
    intro t ht
    have hi := idx0_lt ht
    obtain ⟨a, b, c', d⟩ := C04_relative t ht
    cases c
    · exact ⟨by rw [a, file_ok ht], by rw [b, rank_ok ht]⟩
    · exact ⟨by rw [c', flip_ok ht, Res.bind_ok, file_ofIdx (by omega)],
        by rw [d, flip_ok ht, Res.bind_ok, rank_ofIdx (by omega)]⟩
  refine ⟨fun h => ?_, fun h => ?_⟩
  · refine ⟨_, Square.new_relative_ok f r h c, ?_, ?_, ?_, ?_⟩
    · apply ofIdx_valid; cases c <;> simp only <;> omega
    · rw [(rel _ (ofIdx_valid (by cases c <;> simp only <;> omega))).1]
      rw [idx0_ofIdx (by cases c <;> simp only <;> omega)]
      congr 1; apply BitVec.eq_of_toNat_eq; simp only [BitVec.toNat_ofNat]
      cases c <;> simp only <;> omega
    · rw [(rel _ (ofIdx_valid (by cases c <;> simp only <;> omega))).2]
      rw [idx0_ofIdx (by cases c <;> simp only <;> omega)]
      congr 1; apply BitVec.eq_of_toNat_eq; simp only [BitVec.toNat_ofNat]
      cases c <;> simp only <;> omega
    · intro t ht h1 h2
      have hi := idx0_lt ht
      rw [(rel t ht).1] at h1; rw [(rel t ht).2] at h2
      have h1 := congrArg BitVec.toNat (Res.ok.inj h1)
      have h2 := congrArg BitVec.toNat (Res.ok.inj h2)
      rw [← ofIdx_idx0 ht]; congr 1
      simp only [BitVec.toNat_ofNat] at h1 h2
      cases c <;> simp only at h1 h2 ⊢ <;> omega
  · unfold new_relative; rw [if_pos (new_none_aux _ _ h)]

/-- Non-vacuity: White's 2h (rook's home seen from White) is 8b. -/
example : new_relative 2 8 .White = .ok (some (Square.at 8 2)) := by
  rw [Square.new_relative_ok _ _ (by decide)]; decide

/-! ### C05 -/

/-- The rank letter of a rank: A, B, …, I. -/
def rankLetter (r : Nat) : String := (["", "A", "B", "C", "D", "E", "F", "G", "H", "I"][r]?).getD ""

/-- The file digit of a file. -/
def fileDigit (f : Nat) : String := (["", "1", "2", "3", "4", "5", "6", "7", "8", "9"][f]?).getD ""

omit P in
private theorem square_consts_table : ∀ f < 9, ∀ r < 9,
    square_consts_assoc.lookup ("SQ_" ++ fileDigit (f + 1) ++ rankLetter (r + 1)) =
      some (9 * f + r + 1) := by decide +kernel

/-- C05: for each file and rank the constant `SQ_<file><rank letter>` exists and equals
`Square::new(file, rank)`. -/
theorem C05_square_consts (f r : Nat) (hf : 1 ≤ f ∧ f ≤ 9) (hr : 1 ≤ r ∧ r ≤ 9) :
    ∃ s, Square.const ("SQ_" ++ fileDigit f ++ rankLetter r) = .ok s ∧
      Square.new (BitVec.ofNat 8 f) (BitVec.ofNat 8 r) = .ok (some s) := by
  have ht := square_consts_table (f - 1) (by omega) (r - 1) (by omega)
  rw [Nat.sub_add_cancel hf.1, Nat.sub_add_cancel hr.1] at ht
  have e : 9 * (f - 1) + (r - 1) + 1 = 9 * f + r - 10 + 1 := by omega
  rw [e] at ht
  have e1 : (BitVec.ofNat 8 f).toNat = f := by simp only [BitVec.toNat_ofNat]; omega
  have e2 : (BitVec.ofNat 8 r).toNat = r := by simp only [BitVec.toNat_ofNat]; omega
  refine ⟨ofIdx (9 * f + r - 10), ?_, ?_⟩
  · rw [Square.const, ht]
    exact from_u8_unchecked_ok (ofIdx_valid (by omega))
  · rw [Square.new_ok _ _ (by omega), e1, e2]

/-- C05: there are exactly 81 square constants, with distinct names and distinct values,
and the associated constants and the module constants are the same table. -/
theorem C05_square_consts_complete :
    square_consts_assoc.length = 81 ∧ (square_consts_assoc.map Prod.fst).Nodup ∧
    (square_consts_assoc.map Prod.snd).Nodup ∧ square_consts_mod = square_consts_assoc := by
  decide +kernel

/-- The kind named by the part of a piece constant's name after the underscore. -/
def kindOfShortName : List Char → Option PieceKind
  | ['P'] => some .Pawn | ['L'] => some .Lance | ['N'] => some .Knight | ['S'] => some .Silver
  | ['G'] => some .Gold | ['B'] => some .Bishop | ['R'] => some .Rook | ['K'] => some .King
  | ['P', 'P'] => some .ProPawn | ['P', 'L'] => some .ProLance | ['P', 'N'] => some .ProKnight
  | ['P', 'S'] => some .ProSilver | ['P', 'B'] => some .ProBishop | ['P', 'R'] => some .ProRook
  | _ => none

/-- What a piece constant's name denotes. -/
def pieceOfName (s : String) : Option (PieceKind × Color) :=
  match s.toList with
  | 'B' :: '_' :: rest => (kindOfShortName rest).map (·, .Black)
  | 'W' :: '_' :: rest => (kindOfShortName rest).map (·, .White)
  | _ => none

/-- C05: every generated piece constant is `Piece::new` of the kind and colour its name
denotes. -/
theorem C05_piece_consts (name k c : String) (h : (name, k, c) ∈ piece_consts_assoc) :
    ∃ kind color, pieceOfName name = some (kind, color) ∧
      Piece.const name = Piece.new kind color ∧ evalPieceConst k c = Piece.new kind color := by
  have ht : ∀ e ∈ piece_consts_assoc, ∃ k ∈ PieceKind.all, ∃ c ∈ [Color.Black, .White],
      pieceOfName e.1 = some (k, c) ∧ pieceKindIdent e.2.1 = some k ∧ colorIdent e.2.2 = some c ∧
      piece_consts_assoc.lookup e.1 = some e.2 := by decide +kernel
  obtain ⟨kind, _, color, _, h1, h2, h3, h4⟩ := ht _ h
  refine ⟨kind, color, h1, ?_, ?_⟩
  · simp only at h2 h3 h4; simp only [Piece.const, h4, evalPieceConst, h2, h3]
  · simp only at h2 h3; simp only [evalPieceConst, h2, h3]

/-- C05: there are exactly 28 piece constants with distinct names, denoting all 28
(kind, colour) pairs; the module copy is the same table. -/
theorem C05_piece_consts_complete :
    piece_consts_assoc.length = 28 ∧ (piece_consts_assoc.map Prod.fst).Nodup ∧
    (∀ k c, ∃ e ∈ piece_consts_assoc, pieceOfName e.1 = some (k, c)) ∧
    piece_consts_mod = piece_consts_assoc := by
  refine ⟨by decide +kernel, by decide +kernel, ?_, by decide +kernel⟩
  intro k c
  cases k <;> cases c <;> decide +kernel

/-- Non-vacuity: `W_PR` is White's promoted rook. -/
example : pieceOfName "W_PR" = some (.ProRook, .White) ∧
    ("W_PR", "ProRook", "White") ∈ piece_consts_assoc := by decide +kernel

end
end ShogiCore
