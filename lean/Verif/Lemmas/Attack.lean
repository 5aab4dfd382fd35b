import Verif.Spec.Attack
import Verif.Lemmas.Rules
import Verif.Props.Bitboard
import Verif.Props.Position
import Verif.Props.Machine

/- Bitboards as sets of coordinates, for the client programs of Spec/Attack.lean. -/

namespace ShogiCore
variable [P : Profile]
set_option linter.unusedSectionVars false

namespace Bitboard

/-- The bitboard has these squares and no bits besides. -/
def Is (b : Bitboard) (X : Nat → Nat → Prop) : Prop :=
  b.Canonical ∧ ∀ f r, Inside f r → (b.Mem (Square.at f r) ↔ X f r)

theorem Is.congr {b : Bitboard} {X Y : Nat → Nat → Prop} (h : b.Is X) (e : ∀ f r, Inside f r → (X f r ↔ Y f r)) :
    b.Is Y := ⟨h.1, fun f r i => (h.2 f r i).trans (e f r i)⟩

theorem Is.or {a b : Bitboard} {X Y : Nat → Nat → Prop} (ha : a.Is X) (hb : b.Is Y) :
    (a.bitor b).Is fun f r => X f r ∨ Y f r :=
  ⟨bitor_canonical ha.1 hb.1, fun f r i => by
    rw [(C15_or a b _ (PartialPosition.at_valid i.1 i.2)).1, ha.2 f r i, hb.2 f r i]⟩

theorem Is.and {a b : Bitboard} {X Y : Nat → Nat → Prop} (ha : a.Is X) (hb : b.Is Y) :
    (a.bitand b).Is fun f r => X f r ∧ Y f r :=
  ⟨bitand_canonical ha.1, fun f r i => by
    rw [(C15_and a b _ (PartialPosition.at_valid i.1 i.2)).1, ha.2 f r i, hb.2 f r i]⟩

theorem empty_is : empty.Is fun _ _ => False :=
  ⟨empty_canonical, fun _ _ i => iff_false_intro (C15_empty _ (PartialPosition.at_valid i.1 i.2))⟩

private theorem small {n : Nat} (h : n ≤ 9) : (BitVec.ofNat 8 n).toNat = n := by
  rw [BitVec.toNat_ofNat]; omega

theorem sideways_is {b : Bitboard} {X : Nat → Nat → Prop} (h : b.Is X) (x : Int) (hx : x.natAbs ≤ 9) :
    ∃ b', b.sideways x = .ok b' ∧ b'.Is fun f r => ∃ f0, Inside f0 r ∧ X f0 r ∧ (f : Int) = f0 + x := by
  unfold sideways
  have hs := small hx
  split
  · rename_i h0
    obtain ⟨b', e, hc, hm⟩ := C21_shift_left b h.1 (BitVec.ofNat 8 x.natAbs) (by omega)
    refine ⟨b', e, hc, fun f r i => ?_⟩
    rw [hm f r i.1 i.2, hs]
    constructor
    · rintro ⟨h1, h2⟩
      have i' : Inside (f - x.natAbs) r := ⟨by have := i.1; omega, i.2⟩
      exact ⟨_, i', (h.2 _ _ i').1 h2, by omega⟩
    · rintro ⟨f0, i', h1, h2⟩
      have := i'.1
      exact ⟨by omega, by rw [show f - x.natAbs = f0 by omega]; exact (h.2 _ _ i').2 h1⟩
  · rename_i h0
    obtain ⟨b', e, hm⟩ := C22_contains b h.1 (BitVec.ofNat 8 x.natAbs) (by omega)
    refine ⟨b'.bitand empty.not, by rw [e]; rfl, ?_, fun f r i => ?_⟩
    · have := bitand_canonical (b := b') (not_canonical empty)
      have e : b'.bitand empty.not = empty.not.bitand b' := by
        simp only [bitand, BitVec.and_comm]
      rw [e]; exact this
    · have hv := PartialPosition.at_valid i.1 i.2
      rw [(C15_and _ _ _ hv).1, C15_not _ _ hv, hm f r i.1 i.2, hs]
      constructor
      · rintro ⟨⟨h1, h2⟩, -⟩
        have i' : Inside (f + x.natAbs) r := ⟨by have := i.1; omega, i.2⟩
        exact ⟨_, i', (h.2 _ _ i').1 h2, by omega⟩
      · rintro ⟨f0, i', h1, h2⟩
        have := i'.1
        exact ⟨⟨by omega, by rw [show f + x.natAbs = f0 by omega]; exact (h.2 _ _ i').2 h1⟩, C15_empty _ hv⟩

theorem offset_is {b : Bitboard} {X : Nat → Nat → Prop} (h : b.Is X) (d : Int × Int) (h1 : d.1.natAbs ≤ 9)
    (h2 : d.2.natAbs ≤ 9) : ∃ b', b.offset d = .ok b' ∧ b'.Is fun f r =>
      ∃ f0 r0, Inside f0 r0 ∧ X f0 r0 ∧ (f : Int) = f0 + d.1 ∧ (r : Int) = r0 + d.2 := by
  obtain ⟨b1, e1, g⟩ := sideways_is h d.1 h1
  unfold offset
  rw [e1, Res.bind_ok]
  have hs := small h2
  split
  · rename_i h0
    obtain ⟨b', e, hc, hm⟩ := C20_shift_down b1 g.1 (BitVec.ofNat 8 d.2.natAbs) (by omega)
    refine ⟨b', e, hc, fun f r i => ?_⟩
    rw [hm f r i.1 i.2, hs]
    constructor
    · rintro ⟨a, m⟩
      have i' : Inside f (r - d.2.natAbs) := ⟨i.1, by have := i.2; omega⟩
      obtain ⟨f0, j, hX, hf⟩ := (g.2 _ _ i').1 m
      exact ⟨f0, _, j, hX, hf, by omega⟩
    · rintro ⟨f0, r0, j, hX, hf, hr⟩
      have := j.2
      have i' : Inside f r0 := ⟨i.1, j.2⟩
      exact ⟨by omega, by rw [show r - d.2.natAbs = r0 by omega]; exact (g.2 _ _ i').2 ⟨f0, j, hX, hf⟩⟩
  · rename_i h0
    obtain ⟨b', e, hc, hm⟩ := C20_shift_up b1 g.1 (BitVec.ofNat 8 d.2.natAbs) (by omega)
    refine ⟨b', e, hc, fun f r i => ?_⟩
    rw [hm f r i.1 i.2, hs]
    constructor
    · rintro ⟨a, m⟩
      have i' : Inside f (r + d.2.natAbs) := ⟨i.1, by have := i.2; omega⟩
      obtain ⟨f0, j, hX, hf⟩ := (g.2 _ _ i').1 m
      exact ⟨f0, _, j, hX, hf, by omega⟩
    · rintro ⟨f0, r0, j, hX, hf, hr⟩
      have := j.2
      have i' : Inside f r0 := ⟨i.1, j.2⟩
      exact ⟨by omega, by rw [show r + d.2.natAbs = r0 by omega]; exact (g.2 _ _ i').2 ⟨f0, j, hX, hf⟩⟩

/-- A free way of `i` squares from (f, r) in direction `d`. -/
def Way (Y : Nat → Nat → Prop) (d : Int × Int) (i f r : Nat) : Prop :=
  ∀ j, j < i → ∃ f' r', Inside f' r' ∧ Y f' r' ∧ (f' : Int) = f + ((j : Int) + 1) * d.1 ∧ (r' : Int) = r + ((j : Int) + 1) * d.2

theorem ray_is {free : Bitboard} {Y : Nat → Nat → Prop} (hY : free.Is Y) (d : Int × Int) (h1 : d.1.natAbs ≤ 9)
    (h2 : d.2.natAbs ≤ 9) (n : Nat) {b : Bitboard} {X : Nat → Nat → Prop} (h : b.Is X) :
    ∃ b', ray free d n b = .ok b' ∧ b'.Is fun f r => ∃ i, i < n ∧ ∃ f0 r0, Inside f0 r0 ∧ X f0 r0 ∧
      (f : Int) = f0 + ((i : Int) + 1) * d.1 ∧ (r : Int) = r0 + ((i : Int) + 1) * d.2 ∧ Way Y d i f0 r0 := by
  induction n generalizing b X with
  | zero => exact ⟨empty, rfl, empty_is.congr fun f r _ => by simp⟩
  | succ n ih =>
    obtain ⟨c, e, hc⟩ := offset_is h d h1 h2
    obtain ⟨b', e', hb⟩ := ih (hc.and hY)
    refine ⟨c.bitor b', by simp only [ray, e, e', Res.bind_ok]; rfl, (hc.or hb).congr fun f r i => ?_⟩
    constructor
    · rintro (⟨f0, r0, j, hX, hf, hr⟩ | ⟨k, hk, f1, r1, j1, ⟨⟨f0, r0, j, hX, hf, hr⟩, hy⟩, hf1, hr1, w⟩)
      · exact ⟨0, by omega, f0, r0, j, hX, by simpa using hf, by simpa using hr, fun j hj => absurd hj (by omega)⟩
      · refine ⟨k + 1, by omega, f0, r0, j, hX, ?_, ?_, ?_⟩
        · rw [hf1, hf]; push_cast; rw [Int.add_mul ((k : Int) + 1) 1, Int.one_mul]; omega
        · rw [hr1, hr]; push_cast; rw [Int.add_mul ((k : Int) + 1) 1, Int.one_mul]; omega
        · intro j hj
          cases j with
          | zero => exact ⟨f1, r1, j1, hy, by simpa using hf, by simpa using hr⟩
          | succ j =>
            obtain ⟨f', r', i', y, a, b⟩ := w j (by omega)
            refine ⟨f', r', i', y, ?_, ?_⟩
            · rw [a, hf]; push_cast; rw [Int.add_mul ((j : Int) + 1) 1, Int.one_mul]; omega
            · rw [b, hr]; push_cast; rw [Int.add_mul ((j : Int) + 1) 1, Int.one_mul]; omega
    · rintro ⟨k, hk, f0, r0, j, hX, hf, hr, w⟩
      cases k with
      | zero => exact .inl ⟨f0, r0, j, hX, by simpa using hf, by simpa using hr⟩
      | succ k =>
        obtain ⟨f1, r1, i1, y1, a1, b1⟩ := w 0 (by omega)
        have a1 : (f1 : Int) = f0 + d.1 := by simpa using a1
        have b1 : (r1 : Int) = r0 + d.2 := by simpa using b1
        refine .inr ⟨k, by omega, f1, r1, i1, ⟨⟨f0, r0, j, hX, a1, b1⟩, y1⟩, ?_, ?_, ?_⟩
        · rw [hf, a1]; push_cast; rw [Int.add_mul ((k : Int) + 1) 1, Int.one_mul]; omega
        · rw [hr, b1]; push_cast; rw [Int.add_mul ((k : Int) + 1) 1, Int.one_mul]; omega
        · intro j hj
          obtain ⟨f', r', i', y, a, b⟩ := w (j + 1) (by omega)
          refine ⟨f', r', i', y, ?_, ?_⟩
          · rw [a, a1]; push_cast; rw [Int.add_mul ((j : Int) + 1) 1, Int.one_mul]; omega
          · rw [b, b1]; push_cast; rw [Int.add_mul ((j : Int) + 1) 1, Int.one_mul]; omega

theorem unite_is {α : Type} {f : α → Res Bitboard} {X : α → Nat → Nat → Prop} :
    ∀ {l : List α}, (∀ a ∈ l, ∃ b, f a = .ok b ∧ b.Is (X a)) →
      ∃ b, unite f l = .ok b ∧ b.Is fun x y => ∃ a ∈ l, X a x y
  | [], _ => ⟨empty, rfl, empty_is.congr fun _ _ _ => by simp⟩
  | a :: l, h => by
    obtain ⟨b, e, hb⟩ := h a (by simp)
    obtain ⟨b', e', hb'⟩ := unite_is (l := l) fun a ha => h a (by simp [ha])
    exact ⟨b.bitor b', by simp only [unite, e, e', Res.bind_ok]; rfl, (hb.or hb').congr fun _ _ _ => by simp⟩

theorem single_is {f r : Nat} (i : Inside f r) :
    ∃ b, single (Square.at f r) = .ok b ∧ b.Is fun x y => x = f ∧ y = r := by
  obtain ⟨b, e, h⟩ := C15_single _ (PartialPosition.at_valid i.1 i.2)
  refine ⟨b, e, ?_, fun x y j => (h _ (PartialPosition.at_valid j.1 j.2)).trans
    ⟨PartialPosition.at_inj j.1 j.2 i.1 i.2, by rintro ⟨rfl, rfl⟩; rfl⟩⟩
  rw [single_ok (PartialPosition.at_valid i.1 i.2)] at e
  cases e
  exact one_canonical (Square.idx0_lt (PartialPosition.at_valid i.1 i.2))

end Bitboard

namespace PartialPosition
open Bitboard

/-- Directions are short. -/
theorem turn_short {k : PieceKind} {c : Color} {d : Int × Int} (h : d ∈ k.steps ∨ d ∈ k.slides) :
    (c.turn d).1.natAbs ≤ 9 ∧ (c.turn d).2.natAbs ≤ 9 := by
  have t : ∀ k : PieceKind, ∀ d ∈ k.steps ++ k.slides, d.1.natAbs ≤ 9 ∧ d.2.natAbs ≤ 9 := by
    intro k; cases k <;> decide
  have := t k d (List.mem_append.2 h)
  cases c <;> simp only [Color.turn, Color.facing] <;> omega

omit P in
/-- The squares on the way between two squares on the board are on the board. -/
theorem between {k : PieceKind} {c : Color} {d : Int × Int} (hd : d ∈ k.slides) {n f r f' r' : Nat}
    (i : Inside f r) (i' : Inside f' r') (h : Shogi.Leads c d (n + 1) f r f' r') {j : Nat} (hj : j < n) :
    Inside ((f : Int) + c.facing * ((j + 1 : Nat) * d.1)).toNat ((r : Int) + c.facing * ((j + 1 : Nat) * d.2)).toNat ∧
    0 ≤ (f : Int) + c.facing * ((j + 1 : Nat) * d.1) ∧ 0 ≤ (r : Int) + c.facing * ((j + 1 : Nat) * d.2) := by
  obtain ⟨h1, h2⟩ := h
  simp only [Inside] at i i' ⊢
  cases k <;> simp only [PieceKind.slides, List.mem_cons, List.not_mem_nil, or_false] at hd <;>
    rcases hd with rfl | rfl | rfl | rfl <;> cases c <;> simp only [Color.facing] at h1 h2 ⊢ <;> omega

private theorem swap (a b c : Int) : a * (b * c) = b * (a * c) := Int.mul_left_comm a b c

/-- What is reached from a set of squares. -/
theorem reach_is {free : Bitboard} {S : Shogi} (hv : free.Is fun f r => S.board f r = none)
    (k : PieceKind) (c : Color) {b : Bitboard} {X : Nat → Nat → Prop} (h : b.Is X) :
    ∃ b', free.reach k c b = .ok b' ∧ b'.Is fun f' r' => ∃ f r, Inside f r ∧ X f r ∧ S.Reaches k c f r f' r' := by
  obtain ⟨near, e1, h1⟩ := unite_is (l := k.steps) (f := fun d => b.offset (c.turn d)) fun d hd =>
    offset_is h (c.turn d) (turn_short (.inl hd)).1 (turn_short (c := c) (.inl hd)).2
  obtain ⟨far, e2, h2⟩ := unite_is (l := k.slides) (f := fun d => ray free (c.turn d) 8 b) fun d hd =>
    ray_is hv (c.turn d) (turn_short (.inr hd)).1 (turn_short (c := c) (.inr hd)).2 8 h
  refine ⟨near.bitor far, by simp only [reach, e1, e2, Res.bind_ok]; rfl, (h1.or h2).congr fun f' r' i' => ?_⟩
  constructor
  · rintro (⟨d, hd, f, r, i, hX, a, b⟩ | ⟨d, hd, n, hn, f, r, i, hX, a, b, w⟩)
    · refine ⟨f, r, i, hX, .inl ⟨d, hd, ?_, ?_⟩⟩
      · rw [a]; simp [Color.turn]
      · rw [b]; simp [Color.turn]
    · refine ⟨f, r, i, hX, .inr ⟨d, hd, n, List.mem_range.2 hn, ⟨?_, ?_⟩, fun j hj => ?_⟩⟩
      · rw [a, swap]; simp [Color.turn]
      · rw [b, swap]; simp [Color.turn]
      · obtain ⟨x, y, _, g, a', b'⟩ := w j (List.mem_range.1 hj)
        unfold Shogi.EmptyAt
        rw [swap, swap (c.facing) _ d.2]
        have ex : ((f : Int) + ((j + 1 : Nat) : Int) * (c.facing * d.1)) = x := by rw [a']; simp [Color.turn]
        have ey : ((r : Int) + ((j + 1 : Nat) : Int) * (c.facing * d.2)) = y := by rw [b']; simp [Color.turn]
        rw [ex, ey]; exact g
  · rintro ⟨f, r, i, hX, ⟨d, hd, a, b⟩ | ⟨d, hd, n, hn, ⟨a, b⟩, w⟩⟩
    · refine .inl ⟨d, hd, f, r, i, hX, ?_, ?_⟩
      · rw [a]; simp [Color.turn]
      · rw [b]; simp [Color.turn]
    · refine .inr ⟨d, hd, n, List.mem_range.1 hn, f, r, i, hX, ?_, ?_, fun j hj => ?_⟩
      · rw [a, swap]; simp [Color.turn]
      · rw [b, swap]; simp [Color.turn]
      · obtain ⟨g, g1, g2⟩ := between hd i i' ⟨a, b⟩ hj
        refine ⟨_, _, g, w j (List.mem_range.2 hj), ?_, ?_⟩
        · rw [Int.toNat_of_nonneg g1, swap]; simp [Color.turn]
        · rw [Int.toNat_of_nonneg g2, swap]; simp [Color.turn]

omit P in
/-- Moves can be traced back. -/
theorem reaches_back {S : Shogi} {k : PieceKind} {c : Color} {f r f' r' : Nat} (h : S.Reaches k c f r f' r') :
    S.Reaches k c.other f' r' f r := by
  have neg : c.other.facing = -c.facing := by cases c <;> rfl
  rcases h with ⟨d, hd, a, b⟩ | ⟨d, hd, n, hn, ⟨a, b⟩, w⟩
  · refine .inl ⟨d, hd, ?_, ?_⟩
    · rw [a, neg, Int.neg_mul]; omega
    · rw [b, neg, Int.neg_mul]; omega
  · refine .inr ⟨d, hd, n, hn, ⟨?_, ?_⟩, fun j hj => ?_⟩
    · rw [a, neg, Int.neg_mul]; omega
    · rw [b, neg, Int.neg_mul]; omega
    · have hj := List.mem_range.1 hj
      have := w (n - 1 - j) (List.mem_range.2 (by omega))
      unfold Shogi.EmptyAt at this ⊢
      have back : ∀ x y : Int, x + c.facing * (((n + 1 : Nat) : Int) * y) + c.other.facing * (((j + 1 : Nat) : Int) * y) =
          x + c.facing * (((n - 1 - j + 1 : Nat) : Int) * y) := by
        intro x y
        have : ((n + 1 : Nat) : Int) = ((n - 1 - j + 1 : Nat) : Int) + ((j + 1 : Nat) : Int) := by omega
        rw [this, neg, Int.add_mul, Int.mul_add, Int.neg_mul]; omega
      rw [a, b, back, back]; exact this

end PartialPosition
end ShogiCore
