import Verif.Lemmas.BitboardIter
import Verif.Lemmas.BitboardShift
import Verif.Props.Square

/- C15-C24: bitboards. -/

namespace ShogiCore
open Bitboard

set_option linter.unusedSectionVars false

section
variable [P : Profile]

/-! ### C15 -/

/-- C15: `contains` answers for every bitboard and every square. -/
theorem C15_contains_total (b : Bitboard) (s : Square) (h : s.Valid) :
    b.contains s = .ok true ∨ b.contains s = .ok false := by
  rw [contains_ok b h]; cases b.bit s.idx0 <;> simp

/-- C15: membership in `empty()`. -/
theorem C15_empty (s : Square) (h : s.Valid) : ¬ empty.Mem s := by
  rw [mem_iff _ h, bit_empty]; simp

/-- C15: `single(s)` contains exactly `s`. -/
theorem C15_single (s : Square) (h : s.Valid) :
    ∃ b, single s = .ok b ∧ ∀ t : Square, t.Valid → (b.Mem t ↔ t = s) := by
  refine ⟨_, single_ok h, fun t ht => ?_⟩
  rw [mem_iff _ ht, bit_one (Square.idx0_lt h) _ (Square.idx0_lt ht)]
  constructor
  · intro e; exact Square.idx0_inj ht h (by have := of_decide_eq_true e; omega)
  · rintro rfl; simp

/-- C15: `a & b`, `a &= b`, `a.and(b)`: intersection. -/
theorem C15_and (a b : Bitboard) (s : Square) (h : s.Valid) :
    ((a.bitand b).Mem s ↔ a.Mem s ∧ b.Mem s) ∧ a.bitand_assign b = a.bitand b ∧
      a.and b = a.bitand b := by
  refine ⟨?_, rfl, rfl⟩
  rw [mem_iff _ h, mem_iff _ h, mem_iff _ h, bit_bitand]; simp

/-- C15: `a | b`, `a |= b`, `a.or(b)`: union. -/
theorem C15_or (a b : Bitboard) (s : Square) (h : s.Valid) :
    ((a.bitor b).Mem s ↔ a.Mem s ∨ b.Mem s) ∧ a.bitor_assign b = a.bitor b ∧
      a.or b = a.bitor b := by
  refine ⟨?_, rfl, rfl⟩
  rw [mem_iff _ h, mem_iff _ h, mem_iff _ h, bit_bitor]; simp

/-- C15: `a ^ b`, `a ^= b`, `a.xor(b)`: symmetric difference. -/
theorem C15_xor (a b : Bitboard) (s : Square) (h : s.Valid) :
    ((a.bitxor b).Mem s ↔ ¬ (a.Mem s ↔ b.Mem s)) ∧ a.bitxor_assign b = a.bitxor b ∧
      a.xor b = a.bitxor b := by
  refine ⟨?_, rfl, rfl⟩
  rw [mem_iff _ h, mem_iff _ h, mem_iff _ h, bit_bitxor]
  cases a.bit s.idx0 <;> cases b.bit s.idx0 <;> simp

/-- C15: `!a`: complement. -/
theorem C15_not (a : Bitboard) (s : Square) (h : s.Valid) : a.not.Mem s ↔ ¬ a.Mem s := by
  rw [mem_iff _ h, mem_iff _ h, bit_not _ (Square.idx0_lt h)]; simp

/-- C15: `a.andnot(b)` is `b` without `a`. -/
theorem C15_andnot (a b : Bitboard) (s : Square) (h : s.Valid) :
    (a.andnot b).Mem s ↔ ¬ a.Mem s ∧ b.Mem s := by
  rw [mem_iff _ h, mem_iff _ h, mem_iff _ h, bit_andnot _ _ (Square.idx0_lt h)]; simp

/-- C15: the variants taking a square. -/
theorem C15_assign_square (a : Bitboard) (t : Square) (ht : t.Valid) :
    ∃ x y z, a.bitand_assign_sq t = .ok x ∧ a.bitor_assign_sq t = .ok y ∧
      a.bitxor_assign_sq t = .ok z ∧
      ∀ s : Square, s.Valid → (x.Mem s ↔ a.Mem s ∧ s = t) ∧ (y.Mem s ↔ a.Mem s ∨ s = t) ∧
        (z.Mem s ↔ ¬ (a.Mem s ↔ s = t)) := by
  obtain ⟨b, hb, hm⟩ := C15_single t ht
  refine ⟨_, _, _, by simp only [bitand_assign_sq, hb, Res.bind_ok]; rfl,
    by simp only [bitor_assign_sq, hb, Res.bind_ok]; rfl,
    by simp only [bitxor_assign_sq, hb, Res.bind_ok]; rfl, fun s hs => ?_⟩
  rw [(C15_and a b s hs).1, (C15_or a b s hs).1, (C15_xor a b s hs).1, hm s hs]
  exact ⟨.rfl, .rfl, .rfl⟩

/-- Non-vacuity: 5e is in {5e} | {1a}, not in {5e} & {1a}. -/
example : ∃ x y, single ⟨41⟩ = .ok x ∧ single ⟨1⟩ = .ok y ∧
    (x.bitor y).Mem ⟨41⟩ ∧ ¬ (x.bitand y).Mem ⟨41⟩ := by
  have v41 : (⟨41⟩ : Square).Valid := by decide
  have v1 : (⟨1⟩ : Square).Valid := by decide
  obtain ⟨x, hx, hxm⟩ := C15_single ⟨41⟩ v41
  obtain ⟨y, hy, hym⟩ := C15_single ⟨1⟩ v1
  refine ⟨x, y, hx, hy, ?_, ?_⟩
  · rw [(C15_or x y _ v41).1, hxm _ v41]; exact .inl rfl
  · rw [(C15_and x y _ v41).1, hym _ v41]; rintro ⟨_, h⟩; revert h; decide

/-! ### C16 -/

/-- Bitboards obtained from the API by any finite sequence of operations within their
documented preconditions, leaving out `shift_right` by 0 and 1 (see C22). -/
inductive Bitboard.Built : Bitboard → Prop
  | empty : Built empty
  | single {s b} : s.Valid → Bitboard.single s = .ok b → Built b
  | bitand {a b} : Built a → Built b → Built (a.bitand b)
  | bitor {a b} : Built a → Built b → Built (a.bitor b)
  | bitxor {a b} : Built a → Built b → Built (a.bitxor b)
  | andnot {a b} : Built a → Built b → Built (a.andnot b)
  | not {a} : Built a → Built a.not
  | flip {a} : Built a → Built a.flip
  | pop {a b o} : Built a → a.pop = .ok (b, o) → Built b
  | file {f p b} : 1 ≤ f.toNat → f.toNat ≤ 9 → p.toNat < 512 →
      from_file_unchecked f p = .ok b → Built b
  | shift_down {a b d} : Built a → d.toNat ≤ 9 → a.shift_down d = .ok b → Built b
  | shift_up {a b d} : Built a → d.toNat ≤ 9 → a.shift_up d = .ok b → Built b
  | shift_left {a b d} : Built a → d.toNat ≤ 9 → a.shift_left d = .ok b → Built b
  | shift_right {a b d} : Built a → 2 ≤ d.toNat → d.toNat ≤ 9 → a.shift_right d = .ok b → Built b
  | swapped {a} : Built a → Built a.swap_bytes.swap_bytes
  | u128 {a} : Built a → Built (from_u128_unchecked a.to_u128)

private theorem delta_ofNat {d : U8} : d = BitVec.ofNat 8 d.toNat := by simp

omit P in
private theorem file_ofNat {f : U8} (h : 1 ≤ f.toNat) : f = BitVec.ofNat 8 (f.toNat - 1 + 1) := by
  rw [Nat.sub_add_cancel h]; simp

omit P in
theorem Bitboard.swap_swap (b : Bitboard) : b.swap_bytes.swap_bytes = b := by
  have h : ∀ x : U64, swap_bytes64 (swap_bytes64 x) = x := by
    intro x
    apply BitVec.eq_of_getLsbD_eq
    intro i hi
    rw [getLsbD_swap_bytes64 _ hi, getLsbD_swap_bytes64 _ (by omega)]
    congr 1; omega
  simp [Bitboard.swap_bytes, ByteSwappedBitboard.swap_bytes, h]

omit P in
theorem Bitboard.from_to_u128 (b : Bitboard) : from_u128_unchecked b.to_u128 = b := by
  apply ext'
  · apply BitVec.eq_of_getLsbD_eq
    intro i hi
    rw [w0_from_u128, getLsbD_to_u128]; simp [hi]
  · apply BitVec.eq_of_getLsbD_eq
    intro i hi
    rw [w1_from_u128, getLsbD_to_u128]; simp [hi, show ¬ 64 + i < 64 by omega]

/-- C16: everything built is canonical. -/
theorem C16_canonical {b : Bitboard} (h : b.Built) : b.Canonical := by
  induction h with
  | empty => exact empty_canonical
  | single hs e =>
    rw [single_ok hs] at e; cases e
    exact one_canonical (Square.idx0_lt hs)
  | bitand _ _ ih _ => exact bitand_canonical ih
  | bitor _ _ ih ih' => exact bitor_canonical ih ih'
  | bitxor _ _ ih ih' => exact bitxor_canonical ih ih'
  | andnot _ _ _ ih => exact andnot_canonical ih
  | not _ _ => exact not_canonical _
  | flip _ _ => exact flip_canonical _
  | pop _ e ih =>
    rcases pop_ok ih with ⟨_, h⟩ | ⟨_, _, _, _, _, h, hc, _⟩
    · rw [h] at e; cases e; exact ih
    · rw [h] at e; cases e; exact hc
  | @file f p b h1 h9 hp e =>
    obtain ⟨b', hb', hc, _⟩ := from_file_spec (show f.toNat - 1 < 9 by omega) hp
    rw [← file_ofNat h1, e] at hb'; cases hb'; exact hc
  | @shift_down a b d _ hd e ih =>
    obtain ⟨b', hb', hc, _⟩ := shift_down_spec ih (show d.toNat < 10 by omega)
    rw [← delta_ofNat, e] at hb'; cases hb'; exact hc
  | @shift_up a b d _ hd e ih =>
    obtain ⟨b', hb', hc, _⟩ := shift_up_spec ih (show d.toNat < 10 by omega)
    rw [← delta_ofNat, e] at hb'; cases hb'; exact hc
  | @shift_left a b d _ hd e ih =>
    obtain ⟨b', hb', hc, _⟩ := shift_left_spec ih (show d.toNat < 10 by omega)
    rw [← delta_ofNat, e] at hb'; cases hb'; exact hc
  | @shift_right a b d _ hd2 hd e ih =>
    obtain ⟨b', hb', hc, _⟩ := shift_right_spec ih (show d.toNat < 10 by omega)
    rw [← delta_ofNat, e] at hb'; cases hb'
    exact hc.2 (by omega)
  | swapped _ ih => rw [swap_swap]; exact ih
  | u128 _ ih => rw [from_to_u128]; exact ih

/-- Canonical bitboards with the same members are equal. -/
theorem Bitboard.ext_mem {a b : Bitboard} (ha : a.Canonical) (hb : b.Canonical)
    (h : ∀ s : Square, s.Valid → (a.Mem s ↔ b.Mem s)) : a = b := by
  apply ext_bit ha hb
  intro i hi
  have := h _ (Square.ofIdx_valid hi)
  rw [mem_iff _ (Square.ofIdx_valid hi), mem_iff _ (Square.ofIdx_valid hi),
    Square.idx0_ofIdx hi] at this
  exact Bool.eq_iff_iff.2 this

/-- C16: `==` on bitboards is equality of sets. -/
theorem C16_extensional {a b : Bitboard} (ha : a.Built) (hb : b.Built) :
    a = b ↔ ∀ s : Square, s.Valid → a.contains s = b.contains s := by
  constructor
  · rintro rfl; intros; rfl
  · intro h
    apply ext_mem (C16_canonical ha) (C16_canonical hb)
    intro s hs; unfold Bitboard.Mem; rw [h s hs]

/-- C16: conversely every documented-valid representation is the union of its squares, so
nothing canonical is left out: two canonical bitboards are equal iff they have the same
members. -/
theorem C16_extensional_all {a b : Bitboard} (ha : a.Canonical) (hb : b.Canonical) :
    a = b ↔ ∀ s : Square, s.Valid → (a.Mem s ↔ b.Mem s) :=
  ⟨by rintro rfl; intros; exact .rfl, ext_mem ha hb⟩

/-- Non-vacuity: {9a} moved right by 8 is {1a}. -/
example : ∃ a b c, single ⟨73⟩ = .ok a ∧ a.shift_right 8 = .ok b ∧ single ⟨1⟩ = .ok c ∧
    b.Built ∧ c.Built ∧ b = c := by
  refine ⟨_, _, _, single_ok (by decide), shift_right_ok _ (k := 8) (by decide),
    single_ok (by decide), ?_, ?_, by decide⟩
  · exact .shift_right (.single (s := ⟨73⟩) (by decide) (single_ok (by decide))) (d := 8)
      (by decide) (by decide) (shift_right_ok _ (k := 8) (by decide))
  · exact .single (s := ⟨1⟩) (by decide) (single_ok (by decide))

/-! ### C17 -/

/-- `l` lists the members of `b`, each once. -/
def Bitboard.Lists (b : Bitboard) (l : List Square) : Prop :=
  l.Nodup ∧ ∀ s : Square, s ∈ l ↔ s.Valid ∧ b.Mem s

theorem Bitboard.bits_lists (b : Bitboard) : b.Lists (b.bits.map Square.ofIdx) := by
  constructor
  · have : b.bits.Pairwise (fun i j => Square.ofIdx i ≠ Square.ofIdx j) := by
      refine List.Pairwise.imp_of_mem ?_ b.bits_pairwise
      intro i j hi hj hlt e
      have := Square.ofIdx_inj (mem_bits.1 hi).1 (mem_bits.1 hj).1 e
      omega
    exact List.pairwise_map.2 this
  · intro s
    constructor
    · intro h
      obtain ⟨i, hi, rfl⟩ := List.mem_map.1 h
      obtain ⟨h1, h2⟩ := mem_bits.1 hi
      exact ⟨Square.ofIdx_valid h1, by rw [mem_iff _ (Square.ofIdx_valid h1), Square.idx0_ofIdx h1]; exact h2⟩
    · rintro ⟨h1, h2⟩
      exact List.mem_map.2 ⟨s.idx0, mem_bits.2 ⟨Square.idx0_lt h1, (mem_iff _ h1).1 h2⟩,
        Square.ofIdx_idx0 h1⟩

theorem Bitboard.Lists.length_eq {b : Bitboard} {l l' : List Square} (h : b.Lists l)
    (h' : b.Lists l') : l.length = l'.length :=
  ((List.perm_ext_iff_of_nodup h.1 h'.1).2 fun s => (h.2 s).trans (h'.2 s).symm).length_eq

/-- C17: `count` is the number of members. -/
theorem C17_count (b : Bitboard) (hb : b.Canonical) (l : List Square) (hl : b.Lists l) :
    ∃ n, b.count = .ok n ∧ n.toNat = l.length := by
  refine ⟨_, count_ok hb, ?_⟩
  have := hl.length_eq b.bits_lists
  rw [List.length_map] at this
  have := b.bits_length_le
  simp only [BitVec.toNat_ofNat]; omega

/-- C17: every bitboard has such a list. -/
theorem C17_lists_exists (b : Bitboard) : ∃ l, b.Lists l := ⟨_, b.bits_lists⟩

/-- C17: `is_empty` holds iff there is no member, iff `count` is 0. -/
theorem C17_is_empty (b : Bitboard) (hb : b.Canonical) :
    (b.is_empty = true ↔ ∀ s : Square, s.Valid → ¬ b.Mem s) ∧
    (b.is_empty = true ↔ b.count = .ok 0) := by
  have h1 : b.is_empty = true ↔ b.bits = [] := by
    rw [bits_nil_iff hb, u128_eq_zero_iff]; simp [is_empty]
  constructor
  · rw [h1]
    constructor
    · intro h s hs hm
      have := mem_bits.2 ⟨Square.idx0_lt hs, (mem_iff _ hs).1 hm⟩
      rw [h] at this; cases this
    · intro h
      apply List.eq_nil_iff_forall_not_mem.2
      intro i hi
      obtain ⟨h2, h3⟩ := mem_bits.1 hi
      exact h _ (Square.ofIdx_valid h2)
        ((mem_iff _ (Square.ofIdx_valid h2)).2 (by rw [Square.idx0_ofIdx h2]; exact h3))
  · rw [h1, count_ok hb]
    have := b.bits_length_le
    constructor
    · intro h; rw [h]; rfl
    · intro h
      have h := congrArg (fun r : Res U8 => match r with | .ok v => v.toNat | _ => 0) h
      simp only [BitVec.toNat_ofNat, BitVec.ofNat_eq_ofNat] at h
      exact List.eq_nil_of_length_eq_zero (by omega)

/-- Non-vacuity: a canonical board with 81 members. -/
example : (Bitboard.not empty).Canonical ∧ (Bitboard.not empty).count = .ok 81 := by
  refine ⟨not_canonical _, ?_⟩
  rw [count_ok (not_canonical _)]
  exact congrArg Res.ok (by decide +kernel : BitVec.ofNat 8 (Bitboard.not empty).bits.length = 81)

/-! ### C18 -/

/-- C18: `pop` returns `None` iff the board is empty, and then changes nothing; otherwise
it returns a member and removes exactly that square. -/
theorem C18_pop (b : Bitboard) (hb : b.Canonical) :
    ((∀ s : Square, s.Valid → ¬ b.Mem s) → b.pop = .ok (b, none)) ∧
    ((∃ s : Square, s.Valid ∧ b.Mem s) → ∃ t b', b.pop = .ok (b', some t) ∧ t.Valid ∧ b.Mem t ∧
      b'.Canonical ∧ ∀ s : Square, s.Valid → (b'.Mem s ↔ b.Mem s ∧ s ≠ t)) := by
  constructor
  · intro h
    rcases pop_ok hb with ⟨_, h'⟩ | ⟨i, _, hi, hbi, _⟩
    · exact h'
    · exfalso
      exact h _ (Square.ofIdx_valid hi)
        ((mem_iff _ (Square.ofIdx_valid hi)).2 (by rw [Square.idx0_ofIdx hi]; exact hbi))
  · rintro ⟨s, hs, hm⟩
    rcases pop_ok hb with ⟨h', _⟩ | ⟨i, b', hi, hbi, _, hp, hc, hbit, _⟩
    · exfalso
      have := mem_bits.2 ⟨Square.idx0_lt hs, (mem_iff _ hs).1 hm⟩
      rw [h'] at this; cases this
    · have hv := Square.ofIdx_valid hi
      refine ⟨_, b', hp, hv, (mem_iff _ hv).2 (by rw [Square.idx0_ofIdx hi]; exact hbi), hc, ?_⟩
      intro s hs
      rw [mem_iff _ hs, mem_iff _ hs, hbit _ (Square.idx0_lt hs)]
      have : s.idx0 = i ↔ s = Square.ofIdx i :=
        ⟨fun e => by rw [← e, Square.ofIdx_idx0 hs], fun e => by rw [e, Square.idx0_ofIdx hi]⟩
      simp [this]

/-- C18: iterating until `None` terminates within `count() + 1` calls and yields every
member exactly once, in ascending index order, `count()` items in total. -/
theorem C18_iterate (b : Bitboard) (hb : b.Canonical) :
    ∃ l n, b.count = .ok n ∧ l.length = n.toNat ∧
      (∀ fuel, n.toNat < fuel → b.iterate fuel = .ok (some l)) ∧
      (∀ fuel, fuel ≤ n.toNat → b.iterate fuel = .ok none) ∧
      b.Lists l ∧ l.Pairwise (fun s t => s.val.toNat < t.val.toNat) := by
  have hlen := b.bits_length_le
  have hn : (BitVec.ofNat 8 b.bits.length).toNat = b.bits.length := by
    simp only [BitVec.toNat_ofNat]; omega
  refine ⟨_, _, count_ok hb, by rw [List.length_map, hn], ?_, ?_, b.bits_lists, ?_⟩
  · intro fuel h
    rw [hn] at h
    rw [iterate_ok fuel hb, if_pos h]
  · intro fuel h
    rw [hn] at h
    rw [iterate_ok fuel hb, if_neg (by omega)]
  · rw [List.pairwise_map]
    refine List.Pairwise.imp_of_mem ?_ b.bits_pairwise
    intro i j hi hj h
    have h1 := (mem_bits.1 hi).1
    have h2 := (mem_bits.1 hj).1
    simp only [Square.ofIdx, BitVec.toNat_ofNat]; omega

/-- C18: `size_hint` is a correct bound on the number of items. -/
theorem C18_size_hint (b : Bitboard) (l : List Square) (hl : b.Lists l) :
    (size_hint b).1 ≤ l.length ∧ ∀ u, (size_hint b).2 = some u → l.length ≤ u := by
  have h := hl.length_eq b.bits_lists
  rw [List.length_map] at h
  have := b.bits_length_le
  refine ⟨Nat.zero_le _, ?_⟩
  intro u hu; simp only [size_hint, Option.some.injEq] at hu; omega

/-- Non-vacuity: {1a, 9i} is visited as 1a, 9i. -/
example : ∃ b : Bitboard, b.Canonical ∧ b.iterate 82 = .ok (some [⟨1⟩, ⟨81⟩]) := by
  refine ⟨⟨1, 1 <<< 17⟩, by decide, ?_⟩
  rw [iterate_ok 82 (by decide)]
  decide +kernel

/-! ### C19 -/

/-- C19: `s ∈ b.flip()` iff `s.flip() ∈ b`. -/
theorem C19_flip (b : Bitboard) (hb : b.Canonical) (s : Square) (hs : s.Valid) :
    ∃ t, s.flip = .ok t ∧ (b.flip.Mem s ↔ b.Mem t) := by
  have hi := Square.idx0_lt hs
  have hv : (Square.ofIdx (80 - s.idx0)).Valid := Square.ofIdx_valid (by omega)
  refine ⟨_, Square.flip_ok hs, ?_⟩
  rw [mem_iff _ hs, mem_iff _ hv, bit_flip hb hi, Square.idx0_ofIdx (by omega)]

/-- C19: `flip` is an involution and its result is canonical. -/
theorem C19_involutive (b : Bitboard) (hb : b.Canonical) :
    b.flip.flip = b ∧ b.flip.Canonical := by
  refine ⟨ext_bit (flip_canonical _) hb ?_, flip_canonical _⟩
  intro i hi
  rw [bit_flip (flip_canonical _) hi, bit_flip hb (by omega)]
  congr 1; omega

/-- Non-vacuity: a set that straddles the two words: {7i, 8a} flips to {2i, 3a}. -/
example : (⟨1 <<< 62, 1⟩ : Bitboard).Canonical ∧
    (⟨1 <<< 62, 1⟩ : Bitboard).flip = ⟨(1 <<< 17) ||| (1 <<< 18), 0⟩ := by
  decide +kernel

/-! ### C20 -/

omit P in
theorem Square.at_eq {f r : Nat} (hf : 1 ≤ f) (hr : 1 ≤ r) :
    Square.at f r = Square.ofIdx (9 * (f - 1) + (r - 1)) := by
  simp only [Square.at, Square.ofIdx]; congr 2; omega

theorem Bitboard.mem_at (b : Bitboard) {f r : Nat} (hf : 1 ≤ f ∧ f ≤ 9) (hr : 1 ≤ r ∧ r ≤ 9) :
    b.Mem (Square.at f r) ↔ b.bit (9 * (f - 1) + (r - 1)) = true := by
  have hi : 9 * (f - 1) + (r - 1) < 81 := by omega
  rw [Square.at_eq hf.1 hr.1, mem_iff _ (Square.ofIdx_valid hi), Square.idx0_ofIdx hi]

/-- C20: `shift_down(delta)`. -/
theorem C20_shift_down (b : Bitboard) (hb : b.Canonical) (delta : U8) (hd : delta.toNat ≤ 9) :
    ∃ b', b.shift_down delta = .ok b' ∧ b'.Canonical ∧
      ∀ f r : Nat, 1 ≤ f ∧ f ≤ 9 → 1 ≤ r ∧ r ≤ 9 →
        (b'.Mem (Square.at f r) ↔ delta.toNat < r ∧ b.Mem (Square.at f (r - delta.toNat))) := by
  obtain ⟨b', h, hc, hbit⟩ := shift_down_spec hb (show delta.toNat < 10 by omega)
  rw [← delta_ofNat] at h
  refine ⟨b', h, hc, fun f r hf hr => ?_⟩
  rw [mem_at b' hf hr, hbit _ (by omega)]
  by_cases hk : delta.toNat < r
  · rw [mem_at b hf (by omega)]
    simp only [hk, true_and, show delta.toNat ≤ (9 * (f - 1) + (r - 1)) % 9 by omega, decide_true,
      Bool.true_and]
    rw [show 9 * (f - 1) + (r - 1) - delta.toNat = 9 * (f - 1) + (r - delta.toNat - 1) by omega]
  · simp only [hk, show ¬ delta.toNat ≤ (9 * (f - 1) + (r - 1)) % 9 by omega, decide_false,
      Bool.false_and, false_and, Bool.false_eq_true]

/-- C20: `shift_up(delta)`. -/
theorem C20_shift_up (b : Bitboard) (hb : b.Canonical) (delta : U8) (hd : delta.toNat ≤ 9) :
    ∃ b', b.shift_up delta = .ok b' ∧ b'.Canonical ∧
      ∀ f r : Nat, 1 ≤ f ∧ f ≤ 9 → 1 ≤ r ∧ r ≤ 9 →
        (b'.Mem (Square.at f r) ↔
          r + delta.toNat ≤ 9 ∧ b.Mem (Square.at f (r + delta.toNat))) := by
  obtain ⟨b', h, hc, hbit⟩ := shift_up_spec hb (show delta.toNat < 10 by omega)
  rw [← delta_ofNat] at h
  refine ⟨b', h, hc, fun f r hf hr => ?_⟩
  rw [mem_at b' hf hr, hbit _ (by omega)]
  by_cases hk : r + delta.toNat ≤ 9
  · rw [mem_at b hf (by omega)]
    simp only [hk, true_and, show (9 * (f - 1) + (r - 1)) % 9 + delta.toNat < 9 by omega,
      decide_true, Bool.true_and]
    rw [show 9 * (f - 1) + (r - 1) + delta.toNat = 9 * (f - 1) + (r + delta.toNat - 1) by omega]
  · simp only [hk, show ¬ (9 * (f - 1) + (r - 1)) % 9 + delta.toNat < 9 by omega, decide_false,
      Bool.false_and, false_and, Bool.false_eq_true]

/-- Non-vacuity: {7i, 8a} down by one is {8b}. -/
example : (⟨1 <<< 62, 1⟩ : Bitboard).Canonical ∧
    (⟨1 <<< 62, 1⟩ : Bitboard).shift_down 1 = .ok ⟨0, 2⟩ := by
  refine ⟨by decide, (shift_down_ok _ (k := 1) (by decide)).trans ?_⟩
  decide +kernel

/-! ### C21 -/

/-- C21: `shift_left(delta)`. -/
theorem C21_shift_left (b : Bitboard) (hb : b.Canonical) (delta : U8) (hd : delta.toNat ≤ 9) :
    ∃ b', b.shift_left delta = .ok b' ∧ b'.Canonical ∧
      ∀ f r : Nat, 1 ≤ f ∧ f ≤ 9 → 1 ≤ r ∧ r ≤ 9 →
        (b'.Mem (Square.at f r) ↔ delta.toNat < f ∧ b.Mem (Square.at (f - delta.toNat) r)) := by
  obtain ⟨b', h, hc, hbit⟩ := shift_left_spec hb (show delta.toNat < 10 by omega)
  rw [← delta_ofNat] at h
  refine ⟨b', h, hc, fun f r hf hr => ?_⟩
  rw [mem_at b' hf hr, hbit _ (by omega)]
  by_cases hk : delta.toNat < f
  · rw [mem_at b (by omega) hr]
    simp only [hk, true_and, show 9 * delta.toNat ≤ 9 * (f - 1) + (r - 1) by omega, decide_true,
      Bool.true_and]
    rw [show 9 * (f - 1) + (r - 1) - 9 * delta.toNat = 9 * (f - delta.toNat - 1) + (r - 1) by omega]
  · simp [hk, show ¬ 9 * delta.toNat ≤ 9 * (f - 1) + (r - 1) by omega]

/-- Non-vacuity: {7i} left by one is {8i}. -/
example : (⟨1 <<< 62, 0⟩ : Bitboard).Canonical ∧
    (⟨1 <<< 62, 0⟩ : Bitboard).shift_left 1 = .ok ⟨0, 1 <<< 8⟩ := by
  refine ⟨by decide, (shift_left_ok _ (k := 1) (by decide)).trans ?_⟩
  decide +kernel

/-! ### C22 -/

/-- C22, membership (full domain): as seen through `contains`, `shift_right` is the
translation for every delta. -/
theorem C22_contains (b : Bitboard) (hb : b.Canonical) (delta : U8) (hd : delta.toNat ≤ 9) :
    ∃ b', b.shift_right delta = .ok b' ∧
      ∀ f r : Nat, 1 ≤ f ∧ f ≤ 9 → 1 ≤ r ∧ r ≤ 9 →
        (b'.Mem (Square.at f r) ↔
          f + delta.toNat ≤ 9 ∧ b.Mem (Square.at (f + delta.toNat) r)) := by
  obtain ⟨b', h, _, hbit⟩ := shift_right_spec hb (show delta.toNat < 10 by omega)
  rw [← delta_ofNat] at h
  refine ⟨b', h, fun f r hf hr => ?_⟩
  rw [mem_at b' hf hr, hbit _ (by omega)]
  by_cases hk : f + delta.toNat ≤ 9
  · rw [mem_at b (by omega) hr]
    simp only [hk, true_and, show 9 * (f - 1) + (r - 1) + 9 * delta.toNat < 81 by omega,
      decide_true, Bool.true_and]
    rw [show 9 * (f - 1) + (r - 1) + 9 * delta.toNat = 9 * (f + delta.toNat - 1) + (r - 1) by omega]
  · simp [hk, show ¬ 9 * (f - 1) + (r - 1) + 9 * delta.toNat < 81 by omega]

/-- C22, exactly when the result is canonical: always for delta ≥ 2; for delta 0 (1) iff
8a (9a) is not a member. -/
theorem C22_canonical_iff (b : Bitboard) (hb : b.Canonical) (delta : U8) (hd : delta.toNat ≤ 9)
    (b' : Bitboard) (h : b.shift_right delta = .ok b') :
    b'.Canonical ↔ ¬ (delta.toNat ≤ 1 ∧ b.Mem (Square.at (8 + delta.toNat) 1)) := by
  obtain ⟨b'', h', hc, _⟩ := shift_right_spec hb (show delta.toNat < 10 by omega)
  rw [← delta_ofNat, h] at h'; cases h'
  rw [hc]
  by_cases hk : delta.toNat ≤ 1
  · rw [mem_at b (by omega) (by omega),
      show 9 * (8 + delta.toNat - 1) + (1 - 1) = 63 + 9 * delta.toNat by omega]
  · simp [hk]

/-- C22: the documented contract, canonical result included, for every delta ≥ 2, and for
delta 0 and 1 on boards without the square that triggers the defect (with it the contract is
violated: `C22_refuted`). -/
theorem C22_shift_right (b : Bitboard) (hb : b.Canonical) (delta : U8)
    (hd : delta.toNat ≤ 9)
    (hok : ¬ (delta.toNat ≤ 1 ∧ b.Mem (Square.at (8 + delta.toNat) 1))) :
    ∃ b', b.shift_right delta = .ok b' ∧ b'.Canonical ∧
      ∀ f r : Nat, 1 ≤ f ∧ f ≤ 9 → 1 ≤ r ∧ r ≤ 9 →
        (b'.Mem (Square.at f r) ↔
          f + delta.toNat ≤ 9 ∧ b.Mem (Square.at (f + delta.toNat) r)) := by
  obtain ⟨b', h, hm⟩ := C22_contains b hb delta hd
  exact ⟨b', h, (C22_canonical_iff b hb delta hd b' h).2 hok, hm⟩

/-- C22 is false of the code: for *every* canonical board with 8a occupied,
`shift_right(0)` is not the identity although it contains the same squares, and it counts
one member too many. -/
theorem C22_refuted (b : Bitboard) (hb : b.Canonical) (h8a : b.Mem (Square.at 8 1)) :
    ∃ b', b.shift_right 0 = .ok b' ∧ b' ≠ b ∧
      (∀ s : Square, s.Valid → b'.contains s = b.contains s) ∧
      (∃ n n', b.count = .ok n ∧ b'.count = .ok n' ∧ n'.toNat = n.toNat + 1) := by
  obtain ⟨b', h, hm⟩ := C22_contains b hb 0 (by decide)
  have hc : ¬ b'.Canonical := fun hcan =>
    (C22_canonical_iff b hb 0 (by decide) b' h).1 hcan ⟨by decide, h8a⟩
  have hsr := shift_right_ok b (k := 0) (by decide)
  have h' : b.shift_right 0 = .ok ⟨b.w0 >>> 0 ||| b.w1 <<< 63, b.w1 >>> 0⟩ := hsr
  rw [h] at h'; cases h'
  have h63 : b.w1.getLsbD 0 = true := by
    rw [mem_at b (by omega) (by omega)] at h8a; simpa [bit] using h8a
  refine ⟨_, h, fun e => hc (by rw [e]; exact hb), ?_, ?_⟩
  · intro s hs
    rw [contains_ok _ hs, contains_ok _ hs]
    congr 1
    simp only [bit, BitVec.ushiftRight_zero]
    split
    · simp; omega
    · rfl
  · have e0 : (List.range 64).countP (fun i => (b.w0 >>> 0 ||| b.w1 <<< 63).getLsbD i) =
        (List.range 64).countP (fun i => b.w0.getLsbD i) + 1 := by
      refine (countP_range_add _ 63 1).trans ?_
      refine Eq.trans ?_ (congrArg (· + 1) (countP_range_add (fun i => b.w0.getLsbD i) 63 1).symm)
      have e1 : (List.range 1).countP (fun j => b.w0.getLsbD (63 + j)) = 0 := by
        rw [List.countP_eq_zero]; intro i _
        rw [canonical_w0 hb (by omega)]; simp
      have e2 : (List.range 1).countP (fun j => (b.w0 >>> 0 ||| b.w1 <<< 63).getLsbD (63 + j)) = 1 := by
        have : (b.w0 >>> 0 ||| b.w1 <<< 63).getLsbD 63 = true := by
          rw [BitVec.getLsbD_or, BitVec.getLsbD_shiftLeft]; simp [h63]
        simp only [List.range_one, List.countP_singleton, Nat.add_zero, this, if_true]
      rw [e1, e2, Nat.add_zero]
      congr 1
      apply List.countP_congr
      intro i hi
      have := List.mem_range.1 hi
      simp [this]
    obtain ⟨l, hl⟩ := C17_lists_exists b
    have hcnt := count_ok hb
    have hlen := b.bits_length_le
    have hle0 : (List.range 64).countP (fun i => b.w0.getLsbD i) ≤ 64 := by
      simpa using List.countP_le_length (p := fun i => b.w0.getLsbD i) (l := List.range 64)
    have hle1 : (List.range 64).countP (fun i => b.w1.getLsbD i) ≤ 64 := by
      simpa using List.countP_le_length (p := fun i => b.w1.getLsbD i) (l := List.range 64)
    have gen : ∀ c : Bitboard, c.count = .ok (BitVec.ofNat 8
        ((List.range 64).countP (fun i => c.w0.getLsbD i) +
         (List.range 64).countP (fun i => c.w1.getLsbD i))) := by
      intro c
      have h0 : (List.range 64).countP (fun i => c.w0.getLsbD i) ≤ 64 := by
        simpa using List.countP_le_length (p := fun i => c.w0.getLsbD i) (l := List.range 64)
      have h1 : (List.range 64).countP (fun i => c.w1.getLsbD i) ≤ 64 := by
        simpa using List.countP_le_length (p := fun i => c.w1.getLsbD i) (l := List.range 64)
      have hs : (count_ones c.w0).toNat + (count_ones c.w1).toNat =
          (List.range 64).countP (fun i => c.w0.getLsbD i) +
          (List.range 64).countP (fun i => c.w1.getLsbD i) := by
        simp only [count_ones, BitVec.toNat_ofNat]; omega
      rw [count, cadd_ok (by rw [hs]; omega), Res.bind_ok, Res.pure_eq]
      congr 1
      apply BitVec.eq_of_toNat_eq
      simp only [cast, BitVec.toNat_setWidth, BitVec.toNat_add, hs, BitVec.toNat_ofNat]; omega
    refine ⟨_, _, gen b, gen _, ?_⟩
    rw [BitVec.ushiftRight_zero] at e0
    simp only [BitVec.ushiftRight_zero, e0, BitVec.toNat_ofNat]
    omega

/-- C22 is false of the code, concretely: {8a} shifted by 0.  In a debug build the next
`pop` panics; in a release build it returns 7i, which is not a member. -/
theorem C22_refuted_pop :
    let b : Bitboard := ⟨0, 1⟩
    b.Canonical ∧ ∃ b', b.shift_right 0 = .ok b' ∧
      (b'.pop = .panic ∨ ∃ b'', b'.pop = .ok (b'', some ⟨63⟩) ∧ ¬ b.Mem ⟨63⟩) := by
  refine ⟨by decide, ⟨1 <<< 63, 1⟩, (shift_right_ok _ (k := 0) (by decide)).trans (by decide), ?_⟩
  rw [mem_iff _ (by decide)]
  have : ∀ d : Build, @pop ⟨d⟩ ⟨1 <<< 63, 1⟩ = .panic ∨
      ∃ b'', @pop ⟨d⟩ ⟨1 <<< 63, 1⟩ = .ok (b'', some ⟨63⟩) ∧
        ¬ (⟨0, 1⟩ : Bitboard).bit (⟨63⟩ : Square).idx0 = true := by
    rintro ⟨_ | _, _ | _⟩
    · exact .inr ⟨⟨0, 1⟩, by decide +kernel, by decide⟩
    · exact .inr ⟨⟨0, 1⟩, by decide +kernel, by decide⟩
    · exact .inl (by decide +kernel)
    · exact .inl (by decide +kernel)
  exact this P.build

/-- Non-vacuity of the partial theorem: {8i} right by one is {7i}. -/
example : (⟨0, 1 <<< 8⟩ : Bitboard).Canonical ∧
    ¬ ((1 : U8).toNat ≤ 1 ∧ (⟨0, 1 <<< 8⟩ : Bitboard).Mem (Square.at (8 + (1 : U8).toNat) 1)) ∧
    (⟨0, 1 <<< 8⟩ : Bitboard).shift_right 1 = .ok ⟨1 <<< 62, 0⟩ := by
  refine ⟨by decide, ?_, (shift_right_ok _ (k := 1) (by decide)).trans (by decide)⟩
  rw [show 8 + (1 : U8).toNat = 9 from rfl, mem_at _ (by decide) (by decide)]
  decide

/-! ### C23 -/

/-- C23: `from_file_unchecked(f, pattern)` contains exactly the squares of file `f` whose
rank bit is set, and is canonical. -/
theorem C23_from_file (file : U8) (hf : 1 ≤ file.toNat ∧ file.toNat ≤ 9) (pattern : U16)
    (hp : pattern.toNat < 512) :
    ∃ b, from_file_unchecked file pattern = .ok b ∧ b.Canonical ∧
      ∀ f r : Nat, 1 ≤ f ∧ f ≤ 9 → 1 ≤ r ∧ r ≤ 9 →
        (b.Mem (Square.at f r) ↔ f = file.toNat ∧ pattern.getLsbD (r - 1) = true) := by
  obtain ⟨b, h, hc, hbit⟩ := from_file_spec (show file.toNat - 1 < 9 by omega) hp
  rw [← file_ofNat hf.1] at h
  refine ⟨b, h, hc, fun f r hf' hr => ?_⟩
  rw [mem_at b hf' hr, hbit _ (by omega),
    show (9 * (f - 1) + (r - 1)) / 9 = f - 1 by omega,
    show (9 * (f - 1) + (r - 1)) % 9 = r - 1 by omega]
  have : f - 1 = file.toNat - 1 ↔ f = file.toNat := by omega
  simp [this]

/-- C23: `get_file_unchecked(f)` reads back exactly the nine rank bits of file `f`, for
any bitboard whatsoever. -/
theorem C23_get_file (b : Bitboard) (file : U8) (hf : 1 ≤ file.toNat ∧ file.toNat ≤ 9) :
    ∃ p, b.get_file_unchecked file = .ok p ∧ p.toNat < 512 ∧
      ∀ r : Nat, 1 ≤ r ∧ r ≤ 9 →
        (p.getLsbD (r - 1) = true ↔ b.Mem (Square.at file.toNat r)) := by
  obtain ⟨p, h, hp, hbit⟩ := get_file_spec b (show file.toNat - 1 < 9 by omega)
  rw [← file_ofNat hf.1] at h
  refine ⟨p, h, hp, fun r hr => ?_⟩
  rw [mem_at b hf hr, hbit]
  simp [show r - 1 < 9 by omega]

/-- C23: writing a file and reading it back is the identity; every other file reads 0. -/
theorem C23_roundtrip (file other : U8) (hf : 1 ≤ file.toNat ∧ file.toNat ≤ 9)
    (ho : 1 ≤ other.toNat ∧ other.toNat ≤ 9) (pattern : U16) (hp : pattern.toNat < 512) :
    ∃ b, from_file_unchecked file pattern = .ok b ∧
      b.get_file_unchecked other = .ok (if other = file then pattern else 0) := by
  obtain ⟨b, h, _, hbit⟩ := from_file_spec (show file.toNat - 1 < 9 by omega) hp
  rw [← file_ofNat hf.1] at h
  obtain ⟨p, h', _, hpb⟩ := get_file_spec b (show other.toNat - 1 < 9 by omega)
  rw [← file_ofNat ho.1] at h'
  refine ⟨b, h, h'.trans (congrArg Res.ok ?_)⟩
  apply BitVec.eq_of_getLsbD_eq
  intro i _
  rw [hpb]
  have hp9 : 9 ≤ i → pattern.getLsbD i = false := by
    intro hi
    rw [BitVec.getLsbD]; apply Nat.testBit_lt_two_pow
    exact Nat.lt_of_lt_of_le hp (Nat.pow_le_pow_right (n := 2) (i := 9) (by decide) hi)
  by_cases hi : i < 9
  · rw [hbit _ (by omega), show (9 * (other.toNat - 1) + i) / 9 = other.toNat - 1 by omega,
      show (9 * (other.toNat - 1) + i) % 9 = i by omega]
    by_cases he : other = file
    · subst he; simp [hi]
    · have : ¬ other.toNat - 1 = file.toNat - 1 := by
        intro e; exact he (BitVec.eq_of_toNat_eq (by omega))
      simp [he, this]
  · by_cases he : other = file
    · simp [he, hi, hp9 (by omega)]
    · simp [he, hi]

/-- Non-vacuity: file 8, ranks 7 and 8. -/
example : from_file_unchecked 8 0xc0 = .ok ⟨0, 0xc0⟩ :=
  (from_file_ok (f := 7) (by decide) 0xc0).trans (by decide +kernel)

/-! ### C24 -/

omit P in
/-- C24: `u128` conversion is a bijection. -/
theorem C24_u128 (b : Bitboard) (a : U128) :
    from_u128_unchecked b.to_u128 = b ∧ (from_u128_unchecked a).to_u128 = a := by
  refine ⟨from_to_u128 b, ?_⟩
  apply BitVec.eq_of_getLsbD_eq
  intro i hi
  rw [getLsbD_to_u128]
  split
  · rename_i h; rw [w0_from_u128]; simp [h]
  · rename_i h; rw [w1_from_u128]
    simp only [show i - 64 < 64 by omega, decide_true, Bool.true_and]
    congr 1; omega

omit P in
private theorem swapped_as (b : ByteSwappedBitboard) :
    b.to_u128 = (⟨b.w0, b.w1⟩ : Bitboard).to_u128 := rfl

omit P in
/-- C24: the same for byte-swapped boards. -/
theorem C24_u128_swapped (b : ByteSwappedBitboard) (a : U128) :
    ByteSwappedBitboard.from_u128_unchecked b.to_u128 = b ∧
      (ByteSwappedBitboard.from_u128_unchecked a).to_u128 = a := by
  have h := C24_u128 ⟨b.w0, b.w1⟩ a
  refine ⟨?_, ?_⟩
  · have := h.1
    rw [← swapped_as] at this
    cases b
    simp only [from_u128_unchecked, Bitboard.mk.injEq] at this
    simp only [ByteSwappedBitboard.from_u128_unchecked, this.1, this.2]
  · exact h.2

omit P in
/-- C24: swapping twice is the identity, from either side. -/
theorem C24_swap_swap (b : Bitboard) (c : ByteSwappedBitboard) :
    b.swap_bytes.swap_bytes = b ∧ c.swap_bytes.swap_bytes = c := by
  refine ⟨swap_swap b, ?_⟩
  have := swap_swap ⟨c.w0, c.w1⟩
  cases c
  simp only [Bitboard.swap_bytes, ByteSwappedBitboard.swap_bytes, Bitboard.mk.injEq] at this
  simp only [Bitboard.swap_bytes, ByteSwappedBitboard.swap_bytes, this.1, this.2]

omit P in
private theorem swap64_ext (f : U64 → U64 → U64) (g : Bool → Bool → Bool)
    (hfg : ∀ x y, ∀ i < 64, (f x y).getLsbD i = g (x.getLsbD i) (y.getLsbD i)) (x y : U64) :
    swap_bytes64 (f x y) = f (swap_bytes64 x) (swap_bytes64 y) := by
  apply BitVec.eq_of_getLsbD_eq
  intro i hi
  rw [getLsbD_swap_bytes64 _ hi, hfg _ _ _ (by omega), hfg _ _ _ hi, getLsbD_swap_bytes64 _ hi,
    getLsbD_swap_bytes64 _ hi]

omit P in
/-- C24: the set operations commute with byte swapping. -/
theorem C24_ops (a b : Bitboard) :
    a.swap_bytes.or b.swap_bytes = (a.or b).swap_bytes ∧
    a.swap_bytes.and b.swap_bytes = (a.and b).swap_bytes ∧
    a.swap_bytes.xor b.swap_bytes = (a.xor b).swap_bytes ∧
    a.swap_bytes.andnot b.swap_bytes = (a.andnot b).swap_bytes := by
  have ho := swap64_ext (· ||| ·) (· || ·) (fun _ _ i _ => BitVec.getLsbD_or)
  have ha := swap64_ext (· &&& ·) (· && ·) (fun _ _ i _ => BitVec.getLsbD_and)
  have hx := swap64_ext (· ^^^ ·) (· ^^ ·) (fun _ _ i _ => BitVec.getLsbD_xor)
  have hn := swap64_ext (fun x y => ~~~x &&& y) (fun x y => !x && y)
    (fun _ _ i hi => by rw [BitVec.getLsbD_and, BitVec.getLsbD_not]; simp [hi])
  refine ⟨?_, ?_, ?_, ?_⟩
  · simp [Bitboard.swap_bytes, Bitboard.or, ByteSwappedBitboard.or, ho]
  · simp [Bitboard.swap_bytes, Bitboard.and, ByteSwappedBitboard.and, ha]
  · simp [Bitboard.swap_bytes, Bitboard.xor, ByteSwappedBitboard.xor, hx]
  · simp [Bitboard.swap_bytes, Bitboard.andnot, ByteSwappedBitboard.andnot, hn]

omit P in
/-- C24: the swapped board's 16 bytes are the board's 16 bytes in reverse order. -/
theorem C24_bytes (b : Bitboard) (j : Nat) (hj : j < 16) :
    byteOf b.swap_bytes.to_u128 j = byteOf b.to_u128 (15 - j) := by
  apply BitVec.eq_of_getLsbD_eq
  intro i hi
  simp only [byteOf, BitVec.getLsbD_extractLsb', hi, decide_true, Bool.true_and]
  rw [swapped_as, getLsbD_to_u128, getLsbD_to_u128]
  simp only [Bitboard.swap_bytes]
  by_cases h : 8 * j + i < 64
  · rw [if_pos h, if_neg (by omega), getLsbD_swap_bytes64 _ h]
    congr 1; omega
  · rw [if_neg h, if_pos (by omega), getLsbD_swap_bytes64 _ (by omega)]
    congr 1; omega

/-- Non-vacuity: a concrete swap moves the lowest byte of the first word to the highest
byte of the second. -/
example : (⟨1, 0⟩ : Bitboard).swap_bytes = ⟨0, 1 <<< 56⟩ := by decide +kernel

end
end ShogiCore
