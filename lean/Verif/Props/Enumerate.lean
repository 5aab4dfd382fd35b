import Verif.Props.BitboardAlgebra
import Verif.Props.Game
import Verif.Props.Position

/- C59: looping over the bitboards of a position. -/

set_option linter.unusedSectionVars false

namespace ShogiCore
open PartialPosition Bitboard
variable [P : Profile]

theorem allSquares_eq : allSquares = (List.range 81).map Square.ofIdx := by decide +kernel

/-- A loop over a bitboard visits the squares the bitboard stands for, in index order. -/
theorem Bitboard.iterate_filter {b : Bitboard} (hb : b.Canonical) (φ : Square → Bool)
    (h : ∀ s : Square, s.Valid → (b.Mem s ↔ φ s = true)) :
    b.iterate 82 = .ok (some (allSquares.filter φ)) := by
  have := b.bits_length_le
  rw [iterate_ok 82 hb, if_pos (by omega), allSquares_eq, List.filter_map]
  congr 3
  refine List.filter_congr fun i hi => ?_
  have hi := List.mem_range.1 hi
  have := h _ (Square.ofIdx_valid hi)
  rw [mem_iff _ (Square.ofIdx_valid hi), Square.idx0_ofIdx hi] at this
  exact Bool.eq_iff_iff.2 this

theorem Bitboard.count_filter {b : Bitboard} (hb : b.Canonical) (φ : Square → Bool)
    (h : ∀ s : Square, s.Valid → (b.Mem s ↔ φ s = true)) :
    ∃ n, b.count = .ok n ∧ n.toNat = allSquares.countP φ := by
  refine ⟨_, count_ok hb, ?_⟩
  rw [count_bits hb (count_ok hb), allSquares_eq, List.countP_map]
  refine List.countP_congr fun i hi => ?_
  have hi := List.mem_range.1 hi
  have := h _ (Square.ofIdx_valid hi)
  rw [mem_iff _ (Square.ofIdx_valid hi), Square.idx0_ofIdx hi] at this
  exact this

/-- Is there a piece of this colour on the square? -/
def PartialPosition.holdsColor (p : PartialPosition) (c : Color) (s : Square) : Bool :=
  match p.piece_at s with
  | .ok (some x) => decide (∃ k ∈ PieceKind.all, x = Piece.mk' k c)
  | _ => false

/-- Is there a piece of this kind on the square? -/
def PartialPosition.holdsKind (p : PartialPosition) (k : PieceKind) (s : Square) : Bool :=
  match p.piece_at s with
  | .ok (some x) => decide (∃ c ∈ Color.all, x = Piece.mk' k c)
  | _ => false

omit P in
theorem mem_all_kinds (k : PieceKind) : k ∈ PieceKind.all := by cases k <;> decide
omit P in
theorem mem_all_colors (c : Color) : c ∈ Color.all := by cases c <;> decide

theorem holdsColor_iff (p : PartialPosition) (c : Color) (s : Square) :
    p.holdsColor c s = true ↔ ∃ k, p.piece_at s = .ok (some (Piece.mk' k c)) := by
  unfold holdsColor
  split
  · rename_i x e
    rw [decide_eq_true_iff, e]
    constructor
    · rintro ⟨k, _, rfl⟩; exact ⟨k, rfl⟩
    · rintro ⟨k, h⟩; exact ⟨k, mem_all_kinds k, Option.some.inj (Res.ok.inj h)⟩
  · rename_i e
    simp only [Bool.false_eq_true, false_iff, not_exists]
    intro k h; exact e _ h

theorem holdsKind_iff (p : PartialPosition) (k : PieceKind) (s : Square) :
    p.holdsKind k s = true ↔ ∃ c, p.piece_at s = .ok (some (Piece.mk' k c)) := by
  unfold holdsKind
  split
  · rename_i x e
    rw [decide_eq_true_iff, e]
    constructor
    · rintro ⟨c, _, rfl⟩; exact ⟨c, rfl⟩
    · rintro ⟨c, h⟩; exact ⟨c, mem_all_colors c, Option.some.inj (Res.ok.inj h)⟩
  · rename_i e
    simp only [Bool.false_eq_true, false_iff, not_exists]
    intro k h; exact e _ h

/-- C59: a loop over each of the bitboards of a position visits exactly the squares that
`piece_at` reports, in index order, each once. -/
theorem C59_loops (p : PartialPosition) (h : ApiReach p) :
    (∀ k c, ∃ b, p.piece_bitboard (Piece.mk' k c) = .ok b ∧ b.iterate 82 = .ok (some
      (allSquares.filter fun s => p.piece_at s = .ok (some (Piece.mk' k c))))) ∧
    (∀ c, ∃ b, p.player_bitboard c = .ok b ∧ b.iterate 82 = .ok (some
      (allSquares.filter fun s => p.holdsColor c s))) ∧
    (∀ k, ∃ b, p.piece_kind_bitboard k = .ok b ∧ b.iterate 82 = .ok (some
      (allSquares.filter fun s => p.holdsKind k s))) ∧
    p.occupied_bitboard.iterate 82 = .ok (some
      (allSquares.filter fun s => !decide (p.piece_at s = .ok none))) ∧
    p.vacant_bitboard.iterate 82 = .ok (some
      (allSquares.filter fun s => p.piece_at s = .ok none)) := by
  have hb := C25_bitboards p h
  obtain ⟨c1, c2, c3, c4, c5⟩ := C25_canonical p h
  refine ⟨fun k c => ?_, fun c => ?_, fun k => ?_, ?_, ?_⟩
  · obtain ⟨b, e, _⟩ := (hb ⟨1⟩ (by decide)).1 k c
    refine ⟨b, e, iterate_filter (c1 _ b (Piece.mk'_valid k c) e) _ fun s hs => ?_⟩
    obtain ⟨b', e', m⟩ := (hb s hs).1 k c
    rw [e] at e'; cases e'
    rw [m, decide_eq_true_iff]
  · obtain ⟨b, e, _⟩ := (hb ⟨1⟩ (by decide)).2.1 c
    refine ⟨b, e, iterate_filter (c2 _ b e) _ fun s hs => ?_⟩
    obtain ⟨b', e', m⟩ := (hb s hs).2.1 c
    rw [e] at e'; cases e'
    rw [m, holdsColor_iff]
  · obtain ⟨b, e, _⟩ := (hb ⟨1⟩ (by decide)).2.2.1 k
    refine ⟨b, e, iterate_filter (c3 _ b e) _ fun s hs => ?_⟩
    obtain ⟨b', e', m⟩ := (hb s hs).2.2.1 k
    rw [e] at e'; cases e'
    rw [m, holdsKind_iff]
  · refine iterate_filter c4 _ fun s hs => ?_
    rw [(hb s hs).2.2.2.1]
    rcases C25_total p h s hs with e | ⟨k, c, e⟩ <;> rw [e] <;> simp
  · refine iterate_filter c5 _ fun s hs => ?_
    rw [(hb s hs).2.2.2.2, decide_eq_true_iff]

/-! ### Counting -/

/-- Sum of numbers over the fourteen kinds. -/
def overKinds (f : PieceKind → Nat) : Nat := (PieceKind.all.map f).sum

omit P in
theorem overKinds_add (f g : PieceKind → Nat) :
    overKinds (fun a => f a + g a) = overKinds f + overKinds g := by
  simp only [overKinds, PieceKind.all, List.map_cons, List.map_nil, List.sum_cons, List.sum_nil]
  omega

omit P in
theorem overKinds_countP {α : Type} (l : List α) (f : PieceKind → α → Bool) (g : α → Bool)
    (h : ∀ a ∈ l, overKinds (fun k => if f k a = true then 1 else 0) = if g a = true then 1 else 0) :
    overKinds (fun k => l.countP (f k)) = l.countP g := by
  induction l with
  | nil => simp only [List.countP_nil]; decide
  | cons a l ih =>
    simp only [List.countP_cons]
    rw [overKinds_add, ih (fun b hb => h b (by simp [hb])), h a (by simp)]

omit P in
theorem overKinds_mk : ∀ (j : PieceKind) (d c : Color),
    overKinds (fun k => if decide (Piece.mk' j d = Piece.mk' k c) = true then 1 else 0) =
      if d = c then 1 else 0 := by decide +kernel

theorem countP_split {α : Type} (l : List α) (f g h : α → Bool)
    (e : ∀ a ∈ l, ((if f a = true then 1 else 0) + if g a = true then 1 else 0 : Nat) =
      if h a = true then 1 else 0) : l.countP f + l.countP g = l.countP h := by
  induction l with
  | nil => rfl
  | cons a l ih =>
    have h1 := ih (fun b hb => e b (by simp [hb]))
    have h2 := e a (by simp)
    simp only [List.countP_cons]; omega

theorem mem_allSquares {s : Square} (h : s ∈ allSquares) : s.Valid := by
  rw [allSquares_eq, List.mem_map] at h
  obtain ⟨i, hi, rfl⟩ := h
  exact Square.ofIdx_valid (List.mem_range.1 hi)

/-- C59: the counts of the bitboards of a position add up: pieces of a kind over the two
colours, pieces of a player over the fourteen kinds, the two players, and the whole board. -/
theorem C59_counts (p : PartialPosition) (h : ApiReach p) :
    ∃ (piece : PieceKind → Color → U8) (player : Color → U8) (kind : PieceKind → U8) (occ vac : U8),
      (∀ k c, ∃ b, p.piece_bitboard (Piece.mk' k c) = .ok b ∧ b.count = .ok (piece k c)) ∧
      (∀ c, ∃ b, p.player_bitboard c = .ok b ∧ b.count = .ok (player c)) ∧
      (∀ k, ∃ b, p.piece_kind_bitboard k = .ok b ∧ b.count = .ok (kind k)) ∧
      p.occupied_bitboard.count = .ok occ ∧ p.vacant_bitboard.count = .ok vac ∧
      (∀ k, (piece k .Black).toNat + (piece k .White).toNat = (kind k).toNat) ∧
      (∀ c, overKinds (fun k => (piece k c).toNat) = (player c).toNat) ∧
      (player .Black).toNat + (player .White).toNat = occ.toNat ∧
      overKinds (fun k => (kind k).toNat) = occ.toNat ∧
      occ.toNat + vac.toNat = 81 := by
  have hb := C25_bitboards p h
  obtain ⟨c1, c2, c3, c4, c5⟩ := C25_canonical p h
  have h1 : ∀ k c, ∃ n : U8, (∃ b, p.piece_bitboard (Piece.mk' k c) = .ok b ∧ b.count = .ok n) ∧
      n.toNat = allSquares.countP fun s => decide (p.piece_at s = .ok (some (Piece.mk' k c))) := by
    intro k c
    obtain ⟨b, e, _⟩ := (hb ⟨1⟩ (by decide)).1 k c
    obtain ⟨n, e', hn⟩ := count_filter (c1 _ b (Piece.mk'_valid k c) e)
      (fun s => decide (p.piece_at s = .ok (some (Piece.mk' k c)))) fun s hs => by
        obtain ⟨b', e', m⟩ := (hb s hs).1 k c
        rw [e] at e'; cases e'
        rw [m, decide_eq_true_iff]
    exact ⟨n, ⟨b, e, e'⟩, hn⟩
  have h2 : ∀ c, ∃ n : U8, (∃ b, p.player_bitboard c = .ok b ∧ b.count = .ok n) ∧
      n.toNat = allSquares.countP (p.holdsColor c) := by
    intro c
    obtain ⟨b, e, _⟩ := (hb ⟨1⟩ (by decide)).2.1 c
    obtain ⟨n, e', hn⟩ := count_filter (c2 _ b e) (p.holdsColor c) fun s hs => by
        obtain ⟨b', e', m⟩ := (hb s hs).2.1 c
        rw [e] at e'; cases e'
        rw [m, holdsColor_iff]
    exact ⟨n, ⟨b, e, e'⟩, hn⟩
  have h3 : ∀ k, ∃ n : U8, (∃ b, p.piece_kind_bitboard k = .ok b ∧ b.count = .ok n) ∧
      n.toNat = allSquares.countP (p.holdsKind k) := by
    intro k
    obtain ⟨b, e, _⟩ := (hb ⟨1⟩ (by decide)).2.2.1 k
    obtain ⟨n, e', hn⟩ := count_filter (c3 _ b e) (p.holdsKind k) fun s hs => by
        obtain ⟨b', e', m⟩ := (hb s hs).2.2.1 k
        rw [e] at e'; cases e'
        rw [m, holdsKind_iff]
    exact ⟨n, ⟨b, e, e'⟩, hn⟩
  obtain ⟨occ, eo, ho⟩ := count_filter c4 (fun s => !decide (p.piece_at s = .ok none)) fun s hs => by
    rw [(hb s hs).2.2.2.1]
    rcases C25_total p h s hs with e | ⟨k, c, e⟩ <;> rw [e] <;> simp
  obtain ⟨vac, ev, hv⟩ := count_filter c5 (fun s => decide (p.piece_at s = .ok none)) fun s hs => by
    rw [(hb s hs).2.2.2.2, decide_eq_true_iff]
  have hcol : ∀ s k c d, p.piece_at s = .ok (some (Piece.mk' k c)) →
      (p.holdsColor d s = true ↔ c = d) := by
    intro s k c d e
    rw [holdsColor_iff, e]
    constructor
    · rintro ⟨j, e⟩; exact (Piece.mk'_inj (Option.some.inj (Res.ok.inj e))).2
    · rintro rfl; exact ⟨k, rfl⟩
  have hkind : ∀ s k c j, p.piece_at s = .ok (some (Piece.mk' k c)) →
      (p.holdsKind j s = true ↔ k = j) := by
    intro s k c d e
    rw [holdsKind_iff, e]
    constructor
    · rintro ⟨j, e⟩; exact (Piece.mk'_inj (Option.some.inj (Res.ok.inj e))).1
    · rintro rfl; exact ⟨c, rfl⟩
  have hcol0 : ∀ s d, p.piece_at s = .ok none → ¬ p.holdsColor d s = true := by
    intro s d e; rw [holdsColor_iff, e]; rintro ⟨_, e⟩; cases e
  have hkind0 : ∀ s d, p.piece_at s = .ok none → ¬ p.holdsKind d s = true := by
    intro s d e; rw [holdsKind_iff, e]; rintro ⟨_, e⟩; cases e
  refine ⟨fun k c => (h1 k c).choose, fun c => (h2 c).choose, fun k => (h3 k).choose, occ, vac,
    fun k c => (h1 k c).choose_spec.1, fun c => (h2 c).choose_spec.1,
    fun k => (h3 k).choose_spec.1, eo, ev, fun k => ?_, fun c => ?_, ?_, ?_, ?_⟩
  · rw [(h1 k .Black).choose_spec.2, (h1 k .White).choose_spec.2, (h3 k).choose_spec.2]
    refine countP_split _ _ _ _ fun s hs => ?_
    rcases C25_total p h s (mem_allSquares hs) with e | ⟨j, c, e⟩
    · rw [if_neg (hkind0 s k e)]; simp [e]
    · have : ∀ (j k : PieceKind) (c : Color),
        ((if decide (Piece.mk' j c = Piece.mk' k .Black) = true then 1 else 0) +
          if decide (Piece.mk' j c = Piece.mk' k .White) = true then 1 else 0 : Nat) =
          if j = k then 1 else 0 := by decide +kernel
      simp only [hkind s j c k e]
      simp only [e, Res.ok.injEq, Option.some.injEq]
      exact this j k c
  · have e1 : (fun k => (h1 k c).choose.toNat) = fun k => allSquares.countP fun s =>
        decide (p.piece_at s = .ok (some (Piece.mk' k c))) :=
      funext fun k => (h1 k c).choose_spec.2
    rw [e1, (h2 c).choose_spec.2]
    refine overKinds_countP _ _ _ fun s hs => ?_
    rcases C25_total p h s (mem_allSquares hs) with e | ⟨j, d, e⟩
    · rw [if_neg (hcol0 s c e)]; simp only [e]; simp; decide
    · simp only [hcol s j d c e]
      simp only [e, Res.ok.injEq, Option.some.injEq]
      exact overKinds_mk j d c
  · rw [(h2 .Black).choose_spec.2, (h2 .White).choose_spec.2, ho]
    refine countP_split _ _ _ _ fun s hs => ?_
    rcases C25_total p h s (mem_allSquares hs) with e | ⟨j, c, e⟩
    · rw [if_neg (hcol0 s .Black e), if_neg (hcol0 s .White e)]; simp [e]
    · simp only [hcol s j c _ e]; cases c <;> simp [e]
  · have e1 : (fun k => (h3 k).choose.toNat) = fun k => allSquares.countP (p.holdsKind k) :=
      funext fun k => (h3 k).choose_spec.2
    rw [e1, ho]
    refine overKinds_countP _ _ _ fun s hs => ?_
    rcases C25_total p h s (mem_allSquares hs) with e | ⟨j, d, e⟩
    · have : ∀ k, ¬ p.holdsKind k s = true := fun k => hkind0 s k e
      simp only [this]; simp [e]; decide
    · simp only [hkind s j d _ e]
      have : ∀ j : PieceKind, overKinds (fun k => if j = k then 1 else 0) = 1 := by decide +kernel
      rw [this]; simp [e]
  · rw [ho, hv, countP_split (h := fun _ => true)]
    · rw [List.countP_true, allSquares, List.length_map, List.length_range]
    · intro s _
      by_cases e : p.piece_at s = .ok none <;> simp [e]

/-- Non-vacuity: in the starting position Black has 20 pieces, 9 of them pawns. -/
example : ∃ p, ApiReach p ∧ (∃ b, p.player_bitboard .Black = .ok b ∧ b.count = .ok 20) ∧
    ∃ b, p.piece_bitboard (Piece.mk' .Pawn .Black) = .ok b ∧ b.count = .ok 9 := by
  refine ⟨sp0, .startpos startpos_ok, ⟨_, player_bitboard_ok _ _, ?_⟩,
    ⟨_, piece_bitboard_ok _ _ _, ?_⟩⟩
  · exact profile_ind (motive := fun P => @Bitboard.count P (sp0.playerBB .Black) = .ok 20)
      (by decide +kernel) P
  · exact profile_ind (motive := fun P => @Bitboard.count P
      ((sp0.kindBB .Pawn).bitand (sp0.playerBB .Black)) = .ok 9) (by decide +kernel) P

end ShogiCore
