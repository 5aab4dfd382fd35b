import Verif.Props.Bitboard
import Verif.Props.Square

/- C57: the laws bitboards obey as values, up to `==`. -/

set_option linter.unusedSectionVars false

namespace ShogiCore
open Bitboard
variable [P : Profile]

/-- Everything true of the membership tests is true of the values. -/
local macro "by_members" : tactic => `(tactic| (
  intro s hs
  simp only [C15_not _ s hs, (C15_and _ _ s hs).1, (C15_or _ _ s hs).1, (C15_xor _ _ s hs).1,
    C15_andnot _ _ s hs, C15_empty s hs]))

/-- C57: `&`, `|`, `!`, `empty()` form a Boolean algebra, on the nose. -/
theorem C57_boolean (a b c : Bitboard) (ha : a.Canonical) (hb : b.Canonical) (hc : c.Canonical) :
    a.bitand b = b.bitand a ∧ a.bitor b = b.bitor a ∧
    (a.bitand b).bitand c = a.bitand (b.bitand c) ∧ (a.bitor b).bitor c = a.bitor (b.bitor c) ∧
    a.bitand (b.bitor c) = (a.bitand b).bitor (a.bitand c) ∧
    a.bitor (b.bitand c) = (a.bitor b).bitand (a.bitor c) ∧
    a.bitand (a.bitor b) = a ∧ a.bitor (a.bitand b) = a ∧
    a.bitand a = a ∧ a.bitor a = a ∧
    a.bitor empty = a ∧ a.bitand empty = empty ∧
    a.bitor empty.not = empty.not ∧ a.bitand empty.not = a ∧
    a.bitand a.not = empty ∧ a.bitor a.not = empty.not ∧ a.not.not = a := by
  have hn := not_canonical
  have he := empty_canonical
  have hA := @bitand_canonical
  have hO := @bitor_canonical
  refine ⟨?_, ?_, ?_, ?_, ?_, ?_, ?_, ?_, ?_, ?_, ?_, ?_, ?_, ?_, ?_, ?_, ?_⟩
  · exact ext_mem (hA ha) (hA hb) (by by_members; exact and_comm)
  · exact ext_mem (hO ha hb) (hO hb ha) (by by_members; exact or_comm)
  · exact ext_mem (hA (hA ha)) (hA ha) (by by_members; exact and_assoc)
  · exact ext_mem (hO (hO ha hb) hc) (hO ha (hO hb hc)) (by by_members; exact or_assoc)
  · exact ext_mem (hA ha) (hO (hA ha) (hA ha)) (by by_members; exact and_or_left)
  · exact ext_mem (hO ha (hA hb)) (hA (hO ha hb)) (by by_members; exact or_and_left)
  · exact ext_mem (hA ha) ha (by by_members; exact ⟨And.left, fun h => ⟨h, .inl h⟩⟩)
  · exact ext_mem (hO ha (hA ha)) ha (by by_members; exact ⟨fun h => h.elim id And.left, .inl⟩)
  · exact ext_mem (hA ha) ha (by by_members; exact and_self_iff)
  · exact ext_mem (hO ha ha) ha (by by_members; exact or_self_iff)
  · exact ext_mem (hO ha he) ha (by by_members; simp)
  · exact ext_mem (hA ha) he (by by_members; simp)
  · exact ext_mem (hO ha (hn _)) (hn _) (by by_members; simp)
  · exact ext_mem (hA ha) ha (by by_members; simp)
  · exact ext_mem (hA ha) he (by by_members; simp)
  · exact ext_mem (hO ha (hn _)) (hn _) (by by_members; simp [Classical.em])
  · exact ext_mem (hn _) ha (by by_members; simp)

/-- C57: De Morgan, differences and symmetric differences. -/
theorem C57_derived (a b : Bitboard) (ha : a.Canonical) (hb : b.Canonical) :
    (a.bitand b).not = a.not.bitor b.not ∧ (a.bitor b).not = a.not.bitand b.not ∧
    a.andnot b = b.bitand a.not ∧ a.bitxor b = (a.bitor b).bitand (a.bitand b).not ∧
    a.bitxor b = b.bitxor a ∧ (a.bitxor b).bitxor b = a ∧ a.bitxor a = empty ∧
    a.bitxor empty.not = a.not := by
  have hn := not_canonical
  refine ⟨?_, ?_, ?_, ?_, ?_, ?_, ?_, ?_⟩
  · exact ext_mem (hn _) (bitor_canonical (hn _) (hn _))
      (by by_members; exact ⟨fun h => Classical.or_iff_not_imp_left.2
        (fun h' hb => h ⟨Classical.not_not.1 h', hb⟩), fun h h' => h.elim (· h'.1) (· h'.2)⟩)
  · exact ext_mem (hn _) (bitand_canonical (hn _)) (by by_members; exact not_or)
  · exact ext_mem (andnot_canonical hb) (bitand_canonical hb) (by by_members; exact and_comm)
  · refine ext_mem (bitxor_canonical ha hb) (bitand_canonical (bitor_canonical ha hb)) ?_
    by_members
    rename_i s _
    by_cases h1 : a.Mem s <;> by_cases h2 : b.Mem s <;> simp [h1, h2]
  · refine ext_mem (bitxor_canonical ha hb) (bitxor_canonical hb ha) ?_
    by_members
    rename_i s _
    by_cases h1 : a.Mem s <;> by_cases h2 : b.Mem s <;> simp [h1, h2]
  · refine ext_mem (bitxor_canonical (bitxor_canonical ha hb) hb) ha ?_
    by_members
    rename_i s _
    by_cases h1 : a.Mem s <;> by_cases h2 : b.Mem s <;> simp [h1, h2]
  · exact ext_mem (bitxor_canonical ha ha) empty_canonical (by by_members; simp)
  · exact ext_mem (bitxor_canonical ha (hn _)) (hn _) (by by_members; simp)

/-! ### Counting -/

theorem Bitboard.count_bits {b : Bitboard} (hb : b.Canonical) {n : U8} (h : b.count = .ok n) :
    n.toNat = (List.range 81).countP b.bit := by
  rw [count_ok hb] at h; cases h
  have := b.bits_length_le
  rw [List.countP_eq_length_filter]
  simp only [BitVec.toNat_ofNat]
  simp only [bits] at *
  omega

theorem countP_or_and {α : Type} (p q : α → Bool) (l : List α) :
    l.countP (fun a => p a || q a) + l.countP (fun a => p a && q a) = l.countP p + l.countP q := by
  induction l with
  | nil => rfl
  | cons a l ih =>
    simp only [List.countP_cons]
    cases p a <;> cases q a <;> simp <;> omega

theorem countP_not {α : Type} (p : α → Bool) (l : List α) :
    l.countP (fun a => !p a) + l.countP p = l.length := by
  induction l with
  | nil => rfl
  | cons a l ih =>
    simp only [List.countP_cons, List.length_cons]
    cases p a <;> simp <;> omega

/-- C57: counting is additive: inclusion-exclusion, complement, difference. -/
theorem C57_count (a b : Bitboard) (ha : a.Canonical) (hb : b.Canonical) :
    ∃ na nb no ni nc nd : U8, a.count = .ok na ∧ b.count = .ok nb ∧ (a.bitor b).count = .ok no ∧
      (a.bitand b).count = .ok ni ∧ a.not.count = .ok nc ∧ (a.andnot b).count = .ok nd ∧
      no.toNat + ni.toNat = na.toNat + nb.toNat ∧ nc.toNat + na.toNat = 81 ∧
      nd.toNat + ni.toNat = nb.toNat := by
  have hO := bitor_canonical ha hb
  have hI : (a.bitand b).Canonical := bitand_canonical ha
  have hN := not_canonical a
  have hD : (a.andnot b).Canonical := andnot_canonical hb
  refine ⟨_, _, _, _, _, _, count_ok ha, count_ok hb, count_ok hO, count_ok hI, count_ok hN,
    count_ok hD, ?_⟩
  rw [count_bits ha (count_ok ha), count_bits hb (count_ok hb), count_bits hO (count_ok hO),
    count_bits hI (count_ok hI), count_bits hN (count_ok hN), count_bits hD (count_ok hD)]
  have e1 : (List.range 81).countP (a.bitor b).bit =
      (List.range 81).countP (fun i => a.bit i || b.bit i) :=
    List.countP_congr fun i _ => by rw [bit_bitor]
  have e2 : (List.range 81).countP (a.bitand b).bit =
      (List.range 81).countP (fun i => a.bit i && b.bit i) :=
    List.countP_congr fun i _ => by rw [bit_bitand]
  have e3 : (List.range 81).countP a.not.bit = (List.range 81).countP (fun i => !a.bit i) :=
    List.countP_congr fun i hi => by rw [bit_not _ (List.mem_range.1 hi)]
  have e4 : (List.range 81).countP (a.andnot b).bit =
      (List.range 81).countP (fun i => !a.bit i && b.bit i) :=
    List.countP_congr fun i hi => by rw [bit_andnot _ _ (List.mem_range.1 hi)]
  have c1 := countP_or_and a.bit b.bit (List.range 81)
  have c2 := countP_not a.bit (List.range 81)
  have c3 : ∀ l : List Nat, l.countP (fun i => !a.bit i && b.bit i) +
      l.countP (fun i => a.bit i && b.bit i) = l.countP b.bit := by
    intro l
    induction l with
    | nil => rfl
    | cons i l ih =>
      simp only [List.countP_cons]
      cases a.bit i <;> cases b.bit i <;> simp <;> omega
  rw [List.length_range] at c2
  rw [e1, e2, e3, e4]
  exact ⟨c1, c2, c3 _⟩

/-! ### Shifts -/

theorem Bitboard.ext_at {a b : Bitboard} (ha : a.Canonical) (hb : b.Canonical)
    (h : ∀ f r : Nat, 1 ≤ f ∧ f ≤ 9 → 1 ≤ r ∧ r ≤ 9 →
      (a.Mem (Square.at f r) ↔ b.Mem (Square.at f r))) : a = b := by
  apply ext_bit ha hb
  intro i hi
  have := h (i / 9 + 1) (i % 9 + 1) (by omega) (by omega)
  rw [mem_at a (by omega) (by omega), mem_at b (by omega) (by omega),
    show 9 * (i / 9 + 1 - 1) + (i % 9 + 1 - 1) = i by omega] at this
  exact Bool.eq_iff_iff.2 this

theorem Bitboard.flip_mem_at {b : Bitboard} (hb : b.Canonical) {f r : Nat} (hf : 1 ≤ f ∧ f ≤ 9)
    (hr : 1 ≤ r ∧ r ≤ 9) : b.flip.Mem (Square.at f r) ↔ b.Mem (Square.at (10 - f) (10 - r)) := by
  rw [mem_at _ hf hr, mem_at b (by omega) (by omega), bit_flip hb (by omega)]
  rw [show 80 - (9 * (f - 1) + (r - 1)) = 9 * (10 - f - 1) + (10 - r - 1) by omega]

/-- C57: two shifts in one direction are one shift. -/
theorem C57_shift_add (b : Bitboard) (hb : b.Canonical) (d e : U8) (h : d.toNat + e.toNat ≤ 9) :
    (b.shift_down d >>= fun x => x.shift_down e) = b.shift_down (d + e) ∧
    (b.shift_up d >>= fun x => x.shift_up e) = b.shift_up (d + e) ∧
    (b.shift_left d >>= fun x => x.shift_left e) = b.shift_left (d + e) := by
  have hde : (d + e).toNat = d.toNat + e.toNat := by rw [BitVec.toNat_add]; omega
  refine ⟨?_, ?_, ?_⟩
  · obtain ⟨x, h1, hx, mx⟩ := C20_shift_down b hb d (by omega)
    obtain ⟨y, h2, hy, my⟩ := C20_shift_down x hx e (by omega)
    obtain ⟨z, h3, hz, mz⟩ := C20_shift_down b hb (d + e) (by omega)
    rw [h1, Res.bind_ok, h2, h3]
    refine congrArg Res.ok (ext_at hy hz fun f r hf hr => ?_)
    rw [my f r hf hr, mz f r hf hr, hde]
    by_cases h0 : e.toNat < r
    · rw [mx f _ hf (by omega), Nat.sub_sub, Nat.add_comm e.toNat]
      by_cases h1 : d.toNat + e.toNat < r
      · simp [h0, h1, show d.toNat < r - e.toNat by omega]
      · simp [h1, show ¬ d.toNat < r - e.toNat by omega]
    · simp [h0, show ¬ d.toNat + e.toNat < r by omega]
  · obtain ⟨x, h1, hx, mx⟩ := C20_shift_up b hb d (by omega)
    obtain ⟨y, h2, hy, my⟩ := C20_shift_up x hx e (by omega)
    obtain ⟨z, h3, hz, mz⟩ := C20_shift_up b hb (d + e) (by omega)
    rw [h1, Res.bind_ok, h2, h3]
    refine congrArg Res.ok (ext_at hy hz fun f r hf hr => ?_)
    rw [my f r hf hr, mz f r hf hr, hde]
    by_cases h0 : r + e.toNat ≤ 9
    · rw [mx f _ hf (by omega), Nat.add_assoc, Nat.add_comm e.toNat]
      by_cases h1 : r + (d.toNat + e.toNat) ≤ 9
      · simp [h0, h1]
      · simp [h1]
    · simp [h0, show ¬ r + (d.toNat + e.toNat) ≤ 9 by omega]
  · obtain ⟨x, h1, hx, mx⟩ := C21_shift_left b hb d (by omega)
    obtain ⟨y, h2, hy, my⟩ := C21_shift_left x hx e (by omega)
    obtain ⟨z, h3, hz, mz⟩ := C21_shift_left b hb (d + e) (by omega)
    rw [h1, Res.bind_ok, h2, h3]
    refine congrArg Res.ok (ext_at hy hz fun f r hf hr => ?_)
    rw [my f r hf hr, mz f r hf hr, hde]
    by_cases h0 : e.toNat < f
    · rw [mx _ r (by omega) hr, Nat.sub_sub, Nat.add_comm e.toNat]
      by_cases h1 : d.toNat + e.toNat < f
      · simp [h0, h1, show d.toNat < f - e.toNat by omega]
      · simp [h1, show ¬ d.toNat < f - e.toNat by omega]
    · simp [h0, show ¬ d.toNat + e.toNat < f by omega]

/-- C57: seen from the other side of the board, down is up. -/
theorem C57_flip_shift_down (b : Bitboard) (hb : b.Canonical) (d : U8) (h : d.toNat ≤ 9) :
    (b.shift_down d >>= fun x => pure x.flip) = b.flip.shift_up d := by
  obtain ⟨x, h1, hx, mx⟩ := C20_shift_down b hb d h
  obtain ⟨y, h2, hy, my⟩ := C20_shift_up b.flip (flip_canonical _) d h
  rw [h1, Res.bind_ok, h2]
  refine congrArg Res.ok (ext_at (flip_canonical _) hy fun f r hf hr => ?_)
  rw [flip_mem_at hx hf hr, mx _ _ (by omega) (by omega), my f r hf hr]
  by_cases h0 : r + d.toNat ≤ 9
  · rw [flip_mem_at hb hf (by omega), show 10 - (r + d.toNat) = 10 - r - d.toNat by omega]
    simp [h0, show d.toNat < 10 - r by omega]
  · simp [h0, show ¬ d.toNat < 10 - r by omega]

/-- C57: and left is right, wherever `shift_right` keeps the representation valid (C22). -/
theorem C57_flip_shift_left (b : Bitboard) (hb : b.Canonical) (d : U8) (h : d.toNat ≤ 9)
    (hok : ¬ (d.toNat ≤ 1 ∧ b.flip.Mem (Square.at (8 + d.toNat) 1))) :
    (b.shift_left d >>= fun x => pure x.flip) = b.flip.shift_right d := by
  obtain ⟨x, h1, hx, mx⟩ := C21_shift_left b hb d h
  obtain ⟨y, h2, hy, my⟩ := C22_shift_right b.flip (flip_canonical _) d h hok
  rw [h1, Res.bind_ok, h2]
  refine congrArg Res.ok (ext_at (flip_canonical _) hy fun f r hf hr => ?_)
  rw [flip_mem_at hx hf hr, mx _ _ (by omega) (by omega), my f r hf hr]
  by_cases h0 : f + d.toNat ≤ 9
  · rw [flip_mem_at hb (by omega) hr, show 10 - (f + d.toNat) = 10 - f - d.toNat by omega]
    simp [h0, show d.toNat < 10 - f by omega]
  · simp [h0, show ¬ d.toNat < 10 - f by omega]

/-- C57: vertical and horizontal shifts commute. -/
theorem C57_shift_comm (b : Bitboard) (hb : b.Canonical) (d e : U8) (hd : d.toNat ≤ 9)
    (he : e.toNat ≤ 9) :
    (b.shift_down d >>= fun x => x.shift_left e) = (b.shift_left e >>= fun x => x.shift_down d) ∧
    (b.shift_up d >>= fun x => x.shift_left e) = (b.shift_left e >>= fun x => x.shift_up d) := by
  obtain ⟨x, h1, hx, mx⟩ := C21_shift_left b hb e he
  constructor
  · obtain ⟨y, h2, hy, my⟩ := C20_shift_down x hx d hd
    obtain ⟨z, h3, hz, mz⟩ := C20_shift_down b hb d hd
    obtain ⟨w, h4, hw, mw⟩ := C21_shift_left z hz e he
    rw [h1, h3, Res.bind_ok, Res.bind_ok, h2, h4]
    refine congrArg Res.ok (ext_at hw hy fun f r hf hr => ?_)
    rw [mw f r hf hr, my f r hf hr]
    by_cases h5 : e.toNat < f <;> by_cases h6 : d.toNat < r <;>
      simp only [h5, h6, true_and, false_and]
    · rw [mz _ r (by omega) hr, mx f _ hf (by omega)]; simp [h5, h6]
    · rw [mz _ r (by omega) hr]; simp [h6]
    · rw [mx f _ hf (by omega)]; simp [h5]
  · obtain ⟨y, h2, hy, my⟩ := C20_shift_up x hx d hd
    obtain ⟨z, h3, hz, mz⟩ := C20_shift_up b hb d hd
    obtain ⟨w, h4, hw, mw⟩ := C21_shift_left z hz e he
    rw [h1, h3, Res.bind_ok, Res.bind_ok, h2, h4]
    refine congrArg Res.ok (ext_at hw hy fun f r hf hr => ?_)
    rw [mw f r hf hr, my f r hf hr]
    by_cases h5 : e.toNat < f <;> by_cases h6 : r + d.toNat ≤ 9 <;>
      simp only [h5, h6, true_and, false_and]
    · rw [mz _ r (by omega) hr, mx f _ hf (by omega)]; simp [h5, h6]
    · rw [mz _ r (by omega) hr]; simp [h6]
    · rw [mx f _ hf (by omega)]; simp [h5]

/-- C57: shifting there and back loses exactly what fell off the board. -/
theorem C57_shift_back (b : Bitboard) (hb : b.Canonical) (d : U8) (h : d.toNat ≤ 9) :
    ∃ x y, b.shift_down d = .ok x ∧ x.shift_up d = .ok y ∧
      ∀ f r : Nat, 1 ≤ f ∧ f ≤ 9 → 1 ≤ r ∧ r ≤ 9 →
        (y.Mem (Square.at f r) ↔ r + d.toNat ≤ 9 ∧ b.Mem (Square.at f r)) := by
  obtain ⟨x, h1, hx, mx⟩ := C20_shift_down b hb d h
  obtain ⟨y, h2, hy, my⟩ := C20_shift_up x hx d h
  refine ⟨x, y, h1, h2, fun f r hf hr => ?_⟩
  rw [my f r hf hr]
  by_cases h0 : r + d.toNat ≤ 9
  · rw [mx f _ hf (by omega), show r + d.toNat - d.toNat = r by omega]
    simp [h0, show d.toNat < r + d.toNat by omega]
  · simp [h0]

/-- C57: shifts distribute over unions and intersections. -/
theorem C57_shift_distrib (a b : Bitboard) (ha : a.Canonical) (hb : b.Canonical) (d : U8)
    (h : d.toNat ≤ 9) :
    (∃ x y, a.shift_down d = .ok x ∧ b.shift_down d = .ok y ∧
      (a.bitor b).shift_down d = .ok (x.bitor y) ∧ (a.bitand b).shift_down d = .ok (x.bitand y)) ∧
    (∃ x y, a.shift_up d = .ok x ∧ b.shift_up d = .ok y ∧
      (a.bitor b).shift_up d = .ok (x.bitor y) ∧ (a.bitand b).shift_up d = .ok (x.bitand y)) ∧
    (∃ x y, a.shift_left d = .ok x ∧ b.shift_left d = .ok y ∧
      (a.bitor b).shift_left d = .ok (x.bitor y) ∧
      (a.bitand b).shift_left d = .ok (x.bitand y)) := by
  have hO := bitor_canonical ha hb
  have hI : (a.bitand b).Canonical := bitand_canonical ha
  have hv : ∀ f r : Nat, 1 ≤ f ∧ f ≤ 9 → 1 ≤ r ∧ r ≤ 9 → (Square.at f r).Valid := by
    intro f r hf hr
    rw [Square.at_eq hf.1 hr.1]; exact Square.ofIdx_valid (by omega)
  refine ⟨?_, ?_, ?_⟩
  · obtain ⟨x, h1, hx, mx⟩ := C20_shift_down a ha d h
    obtain ⟨y, h2, hy, my⟩ := C20_shift_down b hb d h
    obtain ⟨z, h3, hz, mz⟩ := C20_shift_down _ hO d h
    obtain ⟨w, h4, hw, mw⟩ := C20_shift_down _ hI d h
    refine ⟨x, y, h1, h2, h3.trans (congrArg Res.ok (ext_at hz (bitor_canonical hx hy) ?_)),
      h4.trans (congrArg Res.ok (ext_at hw (bitand_canonical hx) ?_))⟩ <;> intro f r hf hr
    · rw [(C15_or x y _ (hv f r hf hr)).1, mz f r hf hr, mx f r hf hr, my f r hf hr]
      by_cases h0 : d.toNat < r
      · rw [(C15_or a b _ (hv f _ hf (by omega))).1]; simp [h0]
      · simp [h0]
    · rw [(C15_and x y _ (hv f r hf hr)).1, mw f r hf hr, mx f r hf hr, my f r hf hr]
      by_cases h0 : d.toNat < r
      · rw [(C15_and a b _ (hv f _ hf (by omega))).1]; simp [h0]
      · simp [h0]
  · obtain ⟨x, h1, hx, mx⟩ := C20_shift_up a ha d h
    obtain ⟨y, h2, hy, my⟩ := C20_shift_up b hb d h
    obtain ⟨z, h3, hz, mz⟩ := C20_shift_up _ hO d h
    obtain ⟨w, h4, hw, mw⟩ := C20_shift_up _ hI d h
    refine ⟨x, y, h1, h2, h3.trans (congrArg Res.ok (ext_at hz (bitor_canonical hx hy) ?_)),
      h4.trans (congrArg Res.ok (ext_at hw (bitand_canonical hx) ?_))⟩ <;> intro f r hf hr
    · rw [(C15_or x y _ (hv f r hf hr)).1, mz f r hf hr, mx f r hf hr, my f r hf hr]
      by_cases h0 : r + d.toNat ≤ 9
      · rw [(C15_or a b _ (hv f _ hf (by omega))).1]; simp [h0]
      · simp [h0]
    · rw [(C15_and x y _ (hv f r hf hr)).1, mw f r hf hr, mx f r hf hr, my f r hf hr]
      by_cases h0 : r + d.toNat ≤ 9
      · rw [(C15_and a b _ (hv f _ hf (by omega))).1]; simp [h0]
      · simp [h0]
  · obtain ⟨x, h1, hx, mx⟩ := C21_shift_left a ha d h
    obtain ⟨y, h2, hy, my⟩ := C21_shift_left b hb d h
    obtain ⟨z, h3, hz, mz⟩ := C21_shift_left _ hO d h
    obtain ⟨w, h4, hw, mw⟩ := C21_shift_left _ hI d h
    refine ⟨x, y, h1, h2, h3.trans (congrArg Res.ok (ext_at hz (bitor_canonical hx hy) ?_)),
      h4.trans (congrArg Res.ok (ext_at hw (bitand_canonical hx) ?_))⟩ <;> intro f r hf hr
    · rw [(C15_or x y _ (hv f r hf hr)).1, mz f r hf hr, mx f r hf hr, my f r hf hr]
      by_cases h0 : d.toNat < f
      · rw [(C15_or a b _ (hv _ r (by omega) hr)).1]; simp [h0]
      · simp [h0]
    · rw [(C15_and x y _ (hv f r hf hr)).1, mw f r hf hr, mx f r hf hr, my f r hf hr]
      by_cases h0 : d.toNat < f
      · rw [(C15_and a b _ (hv _ r (by omega) hr)).1]; simp [h0]
      · simp [h0]

/-- C57: the same laws for `shift_right`, wherever it keeps the representation valid (C22): two shifts
are one, it commutes with vertical shifts, distributes over unions and intersections, and shifting
left and back again loses what fell off the board. -/
theorem C57_shift_right (a b : Bitboard) (ha : a.Canonical) (hb : b.Canonical) (d e : U8)
    (hd : d.toNat ≤ 9) (he : e.toNat ≤ 9)
    (ok : ¬ (d.toNat ≤ 1 ∧ b.Mem (Square.at (8 + d.toNat) 1))) :
    (d.toNat + e.toNat ≤ 9 → ¬ ((d + e).toNat ≤ 1 ∧ b.Mem (Square.at (8 + (d + e).toNat) 1)) →
      (b.shift_right d >>= fun x => x.shift_right e) = b.shift_right (d + e)) ∧
    (b.shift_down e >>= fun x => x.shift_right d) = (b.shift_right d >>= fun x => x.shift_down e) ∧
    (¬ (d.toNat ≤ 1 ∧ e.toNat ≤ 8 ∧ b.Mem (Square.at (8 + d.toNat) (1 + e.toNat))) →
      (b.shift_up e >>= fun x => x.shift_right d) = (b.shift_right d >>= fun x => x.shift_up e)) ∧
    (¬ (d.toNat ≤ 1 ∧ a.Mem (Square.at (8 + d.toNat) 1)) →
      ∃ x y, a.shift_right d = .ok x ∧ b.shift_right d = .ok y ∧
        (a.bitor b).shift_right d = .ok (x.bitor y) ∧
        (a.bitand b).shift_right d = .ok (x.bitand y)) ∧
    (∃ x y, b.shift_right d = .ok x ∧ x.shift_left d = .ok y ∧
      ∀ f r : Nat, 1 ≤ f ∧ f ≤ 9 → 1 ≤ r ∧ r ≤ 9 →
        (y.Mem (Square.at f r) ↔ d.toNat < f ∧ b.Mem (Square.at f r))) := by
  obtain ⟨x, h1, hx, mx⟩ := C22_shift_right b hb d hd ok
  have hv : ∀ f r : Nat, 1 ≤ f ∧ f ≤ 9 → 1 ≤ r ∧ r ≤ 9 → (Square.at f r).Valid := by
    intro f r hf hr
    rw [Square.at_eq hf.1 hr.1]; exact Square.ofIdx_valid (by omega)
  refine ⟨?_, ?_, ?_, ?_, ?_⟩
  · intro h ok2
    have hde : (d + e).toNat = d.toNat + e.toNat := by rw [BitVec.toNat_add]; omega
    obtain ⟨y, h2, hy, my⟩ := C22_shift_right x hx e he (by
      rintro ⟨g1, g2⟩
      rw [mx _ _ (by omega) (by omega)] at g2
      exact ok2 ⟨by omega, by rw [hde, show 8 + (d.toNat + e.toNat) = 8 + e.toNat + d.toNat by omega]; exact g2.2⟩)
    obtain ⟨z, h3, hz, mz⟩ := C22_shift_right b hb (d + e) (by omega) ok2
    rw [h1, Res.bind_ok, h2, h3]
    refine congrArg Res.ok (ext_at hy hz fun f r hf hr => ?_)
    rw [my f r hf hr, mz f r hf hr, hde]
    by_cases h0 : f + e.toNat ≤ 9
    · rw [mx _ r (by omega) hr, Nat.add_assoc, Nat.add_comm e.toNat]
      by_cases h1 : f + (d.toNat + e.toNat) ≤ 9
      · simp [h0, h1]
      · simp [h1]
    · simp [h0, show ¬ f + (d.toNat + e.toNat) ≤ 9 by omega]
  · obtain ⟨y, h2, hy, my⟩ := C20_shift_down x hx e he
    obtain ⟨z, h3, hz, mz⟩ := C20_shift_down b hb e he
    obtain ⟨w, h4, hw, mw⟩ := C22_shift_right z hz d hd (by
      rintro ⟨g1, g2⟩
      rw [mz _ _ (by omega) (by omega)] at g2
      exact ok ⟨g1, by rw [show 1 - e.toNat = 1 by omega] at g2; exact g2.2⟩)
    rw [h1, h3, Res.bind_ok, Res.bind_ok, h2, h4]
    refine congrArg Res.ok (ext_at hw hy fun f r hf hr => ?_)
    rw [mw f r hf hr, my f r hf hr]
    by_cases h5 : f + d.toNat ≤ 9 <;> by_cases h6 : e.toNat < r <;>
      simp only [h5, h6, true_and, false_and]
    · rw [mz _ r (by omega) hr, mx f _ hf (by omega)]; simp [h5, h6]
    · rw [mz _ r (by omega) hr]; simp [h6]
    · rw [mx f _ hf (by omega)]; simp [h5]
  · intro ok2
    obtain ⟨y, h2, hy, my⟩ := C20_shift_up x hx e he
    obtain ⟨z, h3, hz, mz⟩ := C20_shift_up b hb e he
    obtain ⟨w, h4, hw, mw⟩ := C22_shift_right z hz d hd (by
      rintro ⟨g1, g2⟩
      rw [mz _ _ (by omega) (by omega)] at g2
      exact ok2 ⟨g1, by omega, g2.2⟩)
    rw [h1, h3, Res.bind_ok, Res.bind_ok, h2, h4]
    refine congrArg Res.ok (ext_at hw hy fun f r hf hr => ?_)
    rw [mw f r hf hr, my f r hf hr]
    by_cases h5 : f + d.toNat ≤ 9 <;> by_cases h6 : r + e.toNat ≤ 9 <;>
      simp only [h5, h6, true_and, false_and]
    · rw [mz _ r (by omega) hr, mx f _ hf (by omega)]; simp [h5, h6]
    · rw [mz _ r (by omega) hr]; simp [h6]
    · rw [mx f _ hf (by omega)]; simp [h5]
  · intro ok2
    have hO := bitor_canonical ha hb
    have hI : (a.bitand b).Canonical := bitand_canonical ha
    obtain ⟨y, h2, hy, my⟩ := C22_shift_right a ha d hd ok2
    obtain ⟨z, h3, hz, mz⟩ := C22_shift_right _ hO d hd (by
      rintro ⟨g1, g2⟩
      rw [(C15_or a b _ (hv _ 1 (by omega) (by omega))).1] at g2
      rcases g2 with g2 | g2
      · exact ok2 ⟨g1, g2⟩
      · exact ok ⟨g1, g2⟩)
    obtain ⟨w, h4, hw, mw⟩ := C22_shift_right _ hI d hd (by
      rintro ⟨g1, g2⟩
      rw [(C15_and a b _ (hv _ 1 (by omega) (by omega))).1] at g2
      exact ok ⟨g1, g2.2⟩)
    refine ⟨y, x, h2, h1, h3.trans (congrArg Res.ok (ext_at hz (bitor_canonical hy hx) ?_)),
      h4.trans (congrArg Res.ok (ext_at hw (bitand_canonical hy) ?_))⟩ <;> intro f r hf hr
    · rw [(C15_or y x _ (hv f r hf hr)).1, mz f r hf hr, mx f r hf hr, my f r hf hr]
      by_cases h0 : f + d.toNat ≤ 9
      · rw [(C15_or a b _ (hv _ r (by omega) hr)).1]; simp [h0]
      · simp [h0]
    · rw [(C15_and y x _ (hv f r hf hr)).1, mw f r hf hr, mx f r hf hr, my f r hf hr]
      by_cases h0 : f + d.toNat ≤ 9
      · rw [(C15_and a b _ (hv _ r (by omega) hr)).1]; simp [h0]
      · simp [h0]
  · obtain ⟨y, h2, hy, my⟩ := C21_shift_left x hx d hd
    refine ⟨x, y, h1, h2, fun f r hf hr => ?_⟩
    rw [my f r hf hr]
    by_cases h0 : d.toNat < f
    · rw [mx _ r (by omega) hr, show f - d.toNat + d.toNat = f by omega]
      simp [h0, hf.2]
    · simp [h0]

/-- A case: everything but files 8 and 9, shifted by one. -/
example (b : Bitboard) (hb : b.Canonical) (h : ∀ f r, 8 ≤ f → ¬ b.Mem (Square.at f r)) :
    (b.shift_right 1 >>= fun x => x.shift_right 1) = b.shift_right 2 := by
  exact (C57_shift_right b b hb hb 1 1 (by decide) (by decide) (fun e => h _ _ (by decide) e.2)).1 (by decide)
    (fun e => h _ _ (by decide) e.2)

/-! ### C58: bitboards and squares move alike -/

/-- `b` is the set of the square computed by `o`, if there is one. -/
def Bitboard.IsThat (b : Bitboard) (o : Res (Option Square)) : Prop :=
  (∃ t, o = .ok (some t) ∧ t.Valid ∧ single t = .ok b) ∨ (o = .ok none ∧ b = empty)

theorem Bitboard.one_mem_at {i : Nat} (hi : i < 81) {f r : Nat} (hf : 1 ≤ f ∧ f ≤ 9)
    (hr : 1 ≤ r ∧ r ≤ 9) :
    (one i).Mem (Square.at f r) ↔ f = i / 9 + 1 ∧ r = i % 9 + 1 := by
  rw [mem_at _ hf hr, bit_one hi _ (by omega), decide_eq_true_iff]
  omega

/-- The common argument: a shift of the board by `(df, dr)` and `Square::shift`. -/
theorem Bitboard.isThat_of {s : Square} (hs : s.Valid) {df dr : I8} {b : Bitboard}
    (hb : b.Canonical)
    (h : ∀ f r : Nat, 1 ≤ f ∧ f ≤ 9 → 1 ≤ r ∧ r ≤ 9 → (b.Mem (Square.at f r) ↔
      (f : Int) = (s.idx0 / 9 + 1 : Nat) + df.toInt ∧
      (r : Int) = (s.idx0 % 9 + 1 : Nat) + dr.toInt)) :
    b.IsThat (s.shift df dr) := by
  have hi := Square.idx0_lt hs
  obtain ⟨h1, h2⟩ := C03_shift s hs df dr _ _ (Square.file_ok hs) (Square.rank_ok hs)
  have e1 : (BitVec.ofNat 8 (s.idx0 / 9 + 1)).toNat = s.idx0 / 9 + 1 := by
    simp only [BitVec.toNat_ofNat]; omega
  have e2 : (BitVec.ofNat 8 (s.idx0 % 9 + 1)).toNat = s.idx0 % 9 + 1 := by
    simp only [BitVec.toNat_ofNat]; omega
  rw [e1, e2] at h1 h2
  by_cases hon : OnBoard ((s.idx0 / 9 + 1 : Nat) + df.toInt) ((s.idx0 % 9 + 1 : Nat) + dr.toInt)
  · obtain ⟨t, f', r', ht, hv, hf, hr, hfn, hrn⟩ := h1 hon
    have hj := Square.idx0_lt hv
    rw [Square.file_ok hv] at hf; cases hf
    rw [Square.rank_ok hv] at hr; cases hr
    have e3 : (BitVec.ofNat 8 (t.idx0 / 9 + 1)).toNat = t.idx0 / 9 + 1 := by
      simp only [BitVec.toNat_ofNat]; omega
    have e4 : (BitVec.ofNat 8 (t.idx0 % 9 + 1)).toNat = t.idx0 % 9 + 1 := by
      simp only [BitVec.toNat_ofNat]; omega
    rw [e3] at hfn; rw [e4] at hrn
    refine .inl ⟨t, ht, hv, (single_ok hv).trans (congrArg Res.ok ?_)⟩
    refine ext_at (one_canonical hj) hb fun f r hf hr => ?_
    rw [one_mem_at hj hf hr, h f r hf hr]
    omega
  · refine .inr ⟨h2 hon, ext_at hb empty_canonical fun f r hf hr => ?_⟩
    rw [h f r hf hr]
    constructor
    · intro e
      exact absurd ⟨by omega, by omega, by omega, by omega⟩ hon
    · intro e
      refine absurd e (C15_empty _ ?_)
      rw [Square.at_eq hf.1 hr.1]; exact Square.ofIdx_valid (by omega)

theorem int8_small : ∀ d < 10, (BitVec.ofNat 8 d).toInt = d ∧ (-(BitVec.ofNat 8 d)).toInt = -d := by
  decide +kernel

/-- C58: shifting the set of one square is `Square::shift`: downwards. -/
theorem C58_shift_down (s : Square) (hs : s.Valid) (d : U8) (h : d.toNat ≤ 9) :
    ∃ b b', single s = .ok b ∧ b.shift_down d = .ok b' ∧ b'.IsThat (s.shift 0 d) := by
  have hi := Square.idx0_lt hs
  obtain ⟨b', h1, hc, hm⟩ := C20_shift_down _ (one_canonical hi) d h
  refine ⟨_, b', single_ok hs, h1, isThat_of hs hc fun f r hf hr => ?_⟩
  have hd := (int8_small d.toNat (by omega)).1
  rw [BitVec.ofNat_toNat, BitVec.setWidth_eq] at hd
  rw [hm f r hf hr, hd, show (0 : I8).toInt = 0 from rfl]
  by_cases h0 : d.toNat < r
  · rw [one_mem_at hi hf (by omega)]; omega
  · simp only [h0, false_and, false_iff]; omega

/-- C58: upwards. -/
theorem C58_shift_up (s : Square) (hs : s.Valid) (d : U8) (h : d.toNat ≤ 9) :
    ∃ b b', single s = .ok b ∧ b.shift_up d = .ok b' ∧ b'.IsThat (s.shift 0 (-d)) := by
  have hi := Square.idx0_lt hs
  obtain ⟨b', h1, hc, hm⟩ := C20_shift_up _ (one_canonical hi) d h
  refine ⟨_, b', single_ok hs, h1, isThat_of hs hc fun f r hf hr => ?_⟩
  have hd := (int8_small d.toNat (by omega)).2
  rw [BitVec.ofNat_toNat, BitVec.setWidth_eq] at hd
  rw [hm f r hf hr, hd, show (0 : I8).toInt = 0 from rfl]
  by_cases h0 : r + d.toNat ≤ 9
  · rw [one_mem_at hi hf (by omega)]; omega
  · simp only [h0, false_and, false_iff]; omega

/-- C58: leftwards, i.e. to higher files. -/
theorem C58_shift_left (s : Square) (hs : s.Valid) (d : U8) (h : d.toNat ≤ 9) :
    ∃ b b', single s = .ok b ∧ b.shift_left d = .ok b' ∧ b'.IsThat (s.shift d 0) := by
  have hi := Square.idx0_lt hs
  obtain ⟨b', h1, hc, hm⟩ := C21_shift_left _ (one_canonical hi) d h
  refine ⟨_, b', single_ok hs, h1, isThat_of hs hc fun f r hf hr => ?_⟩
  have hd := (int8_small d.toNat (by omega)).1
  rw [BitVec.ofNat_toNat, BitVec.setWidth_eq] at hd
  rw [hm f r hf hr, hd, show (0 : I8).toInt = 0 from rfl]
  by_cases h0 : d.toNat < f
  · rw [one_mem_at hi (by omega) hr]; omega
  · simp only [h0, false_and, false_iff]; omega

/-- C58: rightwards, except in the two cases of C22 where `shift_right` leaves a stray bit. -/
theorem C58_shift_right (s : Square) (hs : s.Valid) (d : U8) (h : d.toNat ≤ 9)
    (hok : ¬ (d.toNat ≤ 1 ∧ s = Square.at (8 + d.toNat) 1)) :
    ∃ b b', single s = .ok b ∧ b.shift_right d = .ok b' ∧ b'.IsThat (s.shift (-d) 0) := by
  have hi := Square.idx0_lt hs
  obtain ⟨b', h1, hc, hm⟩ := C22_shift_right _ (one_canonical hi) d h (by
    rintro ⟨h1, h2⟩
    rw [one_mem_at hi (by omega) (by omega)] at h2
    refine hok ⟨h1, ?_⟩
    rw [Square.at_eq (by omega) (by omega), ← Square.ofIdx_idx0 hs]
    congr 1; omega)
  refine ⟨_, b', single_ok hs, h1, isThat_of hs hc fun f r hf hr => ?_⟩
  have hd := (int8_small d.toNat (by omega)).2
  rw [BitVec.ofNat_toNat, BitVec.setWidth_eq] at hd
  rw [hm f r hf hr, hd, show (0 : I8).toInt = 0 from rfl]
  by_cases h0 : f + d.toNat ≤ 9
  · rw [one_mem_at hi (by omega) hr]; omega
  · simp only [h0, false_and, false_iff]; omega

/-- C58: turning the board round turns every square round. -/
theorem C58_flip (s : Square) (hs : s.Valid) :
    ∃ b t, single s = .ok b ∧ s.flip = .ok t ∧ single t = .ok b.flip := by
  have hi := Square.idx0_lt hs
  have hv : (Square.ofIdx (80 - s.idx0)).Valid := Square.ofIdx_valid (by omega)
  refine ⟨_, _, single_ok hs, Square.flip_ok hs, (single_ok hv).trans (congrArg Res.ok ?_)⟩
  rw [Square.idx0_ofIdx (by omega)]
  refine ext_at (one_canonical (by omega)) (flip_canonical _) fun f r hf hr => ?_
  rw [one_mem_at (by omega) hf hr, flip_mem_at (one_canonical hi) hf hr,
    one_mem_at hi (by omega) (by omega)]
  omega

/-- Non-vacuity: 5e shifted down by 2 is 5g, by 5 it is gone; the IsThat cases both occur. -/
example : (⟨41⟩ : Square).Valid ∧ (⟨41⟩ : Square).shift 0 2 = .ok (some ⟨43⟩) ∧
    (⟨41⟩ : Square).shift 0 5 = .ok none := by
  refine ⟨by decide, ?_, ?_⟩
  · exact profile_ind (motive := fun P => @Square.shift P ⟨41⟩ 0 2 = .ok (some ⟨43⟩))
      (by decide +kernel) P
  · exact profile_ind (motive := fun P => @Square.shift P ⟨41⟩ 0 5 = .ok none) (by decide +kernel) P

end ShogiCore
