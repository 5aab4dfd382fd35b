import Verif.Lemmas.Attack
import Verif.Props.BitboardAlgebra
import Verif.Props.Rules

/- C84: attacked squares, attackers and checks found with bitboards. -/

namespace ShogiCore
open PartialPosition Bitboard
variable [P : Profile]
set_option linter.unusedSectionVars false

/-- C84: moving a whole set of squares moves every square of it by the same files and ranks, drops those
that leave the board, wraps none around and leaves no stray bits. -/
theorem C84_offset (b : Bitboard) (hb : b.Canonical) (d : Int × Int) (h1 : d.1.natAbs ≤ 9) (h2 : d.2.natAbs ≤ 9) :
    ∃ b', b.offset d = .ok b' ∧ b'.Canonical ∧ ∀ f r, Inside f r → (b'.Mem (Square.at f r) ↔
      ∃ f0 r0, Inside f0 r0 ∧ b.Mem (Square.at f0 r0) ∧ (f : Int) = f0 + d.1 ∧ (r : Int) = r0 + d.2) := by
  have h : b.Is fun f r => b.Mem (Square.at f r) := ⟨hb, fun _ _ _ => Iff.rfl⟩
  obtain ⟨b', e, g⟩ := offset_is h d h1 h2
  exact ⟨b', e, g.1, g.2⟩

section
variable {p : PartialPosition} {S : Shogi}

theorem cell_iff (hS : p.Shows S) {f r : Nat} (i : Inside f r) (k : PieceKind) (c : Color) :
    p.piece_at (Square.at f r) = .ok (some (Piece.mk' k c)) ↔ S.board f r = some (k, c) := by
  rw [hS.board f r i.1 i.2]
  exact ⟨fun e => piece_eq_some (Res.ok.inj e), fun e => by rw [e]; rfl⟩

theorem piece_is (hp : ApiReach p) (hS : p.Shows S) (k : PieceKind) (c : Color) :
    ∃ b, p.piece_bitboard (Piece.mk' k c) = .ok b ∧ b.Is fun f r => S.board f r = some (k, c) := by
  obtain ⟨b, e, _⟩ := (C25_bitboards p hp (Square.at 1 1) (by decide)).1 k c
  refine ⟨b, e, (C25_canonical p hp).1 _ b (Piece.mk'_valid k c) e, fun f r i => ?_⟩
  obtain ⟨b', e', h⟩ := (C25_bitboards p hp (Square.at f r) (at_valid i.1 i.2)).1 k c
  rw [e] at e'; cases e'
  rw [h, cell_iff hS i]

theorem player_is (hp : ApiReach p) (hS : p.Shows S) (c : Color) :
    ∃ b, p.player_bitboard c = .ok b ∧ b.Is fun f r => ∃ k, S.board f r = some (k, c) := by
  obtain ⟨b, e, _⟩ := (C25_bitboards p hp (Square.at 1 1) (by decide)).2.1 c
  refine ⟨b, e, (C25_canonical p hp).2.1 _ b e, fun f r i => ?_⟩
  obtain ⟨b', e', h⟩ := (C25_bitboards p hp (Square.at f r) (at_valid i.1 i.2)).2.1 c
  rw [e] at e'; cases e'
  simp only [h, cell_iff hS i]

theorem vacant_is (hp : ApiReach p) (hS : p.Shows S) : p.vacant_bitboard.Is fun f r => S.board f r = none := by
  refine ⟨(C25_canonical p hp).2.2.2.2, fun f r i => ?_⟩
  rw [(C25_bitboards p hp (Square.at f r) (at_valid i.1 i.2)).2.2.2.2, hS.board f r i.1 i.2, Res.ok.injEq]
  constructor
  · intro e
    cases h : S.board f r with
    | none => exact h
    | some x => rw [h] at e; cases e
  · intro e; rw [e]; rfl

theorem attacks_is (hp : ApiReach p) (hS : p.Shows S) (c : Color) :
    ∃ b, p.attacks c = .ok b ∧ b.Is (S.Attacked c) := by
  obtain ⟨b, e, h⟩ := unite_is (l := PieceKind.all)
    (f := fun k => do p.vacant_bitboard.reach k c (← p.piece_bitboard (← Piece.new k c)))
    (X := fun k f' r' => ∃ f r, Inside f r ∧ S.board f r = some (k, c) ∧ S.Reaches k c f r f' r') (by
      intro k _
      obtain ⟨b, e, h⟩ := piece_is hp hS k c
      obtain ⟨b', e', h'⟩ := reach_is (vacant_is hp hS) k c h
      exact ⟨b', by simp only [Piece.new_ok, Res.bind_ok, e, e'], h'⟩)
  refine ⟨b, e, h.congr fun f' r' i => ?_⟩
  constructor
  · rintro ⟨k, _, f, r, i, a, hr⟩
    exact ⟨(f, r), Shogi.mem_squares.2 i, (k, c), a, rfl, hr⟩
  · rintro ⟨⟨f, r⟩, hs, ⟨k, c'⟩, a, rfl, hr⟩
    exact ⟨k, by cases k <;> decide, f, r, Shogi.mem_squares.1 hs, a, hr⟩

end

theorem is_at {b : Bitboard} {X : Nat → Nat → Prop} (h : b.Is X) {t : Square} (ht : t.Valid) :
    b.Mem t ↔ X t.column t.row := by
  obtain ⟨a, b', c⟩ := column_row ht
  rw [← h.2 _ _ ⟨a, b'⟩, ← c]

/-- C84: the squares a piece of any kind gets to from a square, according to the rules. -/
theorem C84_reach (p : PartialPosition) (hp : ApiReach p) (S : Shogi) (hS : p.Shows S) (k : PieceKind) (c : Color)
    (s : Square) (hs : s.Valid) : ∃ b, (do p.vacant_bitboard.reach k c (← Bitboard.single s)) = .ok b ∧ b.Canonical ∧
      ∀ t : Square, t.Valid → (b.Mem t ↔ S.Reaches k c s.column s.row t.column t.row) := by
  obtain ⟨h1, h2, h3⟩ := column_row hs
  obtain ⟨b, e, h⟩ := single_is ⟨h1, h2⟩
  rw [← h3] at e
  obtain ⟨b', e', h'⟩ := reach_is (vacant_is hp hS) k c h
  refine ⟨b', by rw [e, Res.bind_ok, e'], h'.1, fun t ht => (is_at h' ht).trans ?_⟩
  constructor
  · rintro ⟨f, r, _, ⟨rfl, rfl⟩, hr⟩; exact hr
  · intro hr; exact ⟨_, _, ⟨h1, h2⟩, ⟨rfl, rfl⟩, hr⟩

/-- C84: the squares attacked by a player, computed for all pieces of a kind at once, are those attacked
according to the rules. -/
theorem C84_attacks (p : PartialPosition) (hp : ApiReach p) (S : Shogi) (hS : p.Shows S) (c : Color) :
    ∃ b, p.attacks c = .ok b ∧ b.Canonical ∧
      ∀ t : Square, t.Valid → (b.Mem t ↔ S.Attacked c t.column t.row) := by
  obtain ⟨b, e, h⟩ := attacks_is hp hS c
  exact ⟨b, e, h.1, fun t ht => is_at h ht⟩

/-- C84: the pieces attacking a square, found by going backwards from it. -/
theorem C84_attackers (p : PartialPosition) (hp : ApiReach p) (S : Shogi) (hS : p.Shows S) (c : Color) (t : Square)
    (ht : t.Valid) : ∃ b, p.attackers c t = .ok b ∧ b.Canonical ∧ ∀ s : Square, s.Valid → (b.Mem s ↔
      ∃ k, S.board s.column s.row = some (k, c) ∧ S.Reaches k c s.column s.row t.column t.row) := by
  obtain ⟨b, e, h⟩ := unite_is (l := PieceKind.all)
    (f := fun k => do
      let back ← p.vacant_bitboard.reach k (← c.flip) (← Bitboard.single t)
      return back.bitand (← p.piece_bitboard (← Piece.new k c)))
    (X := fun k f r => S.board f r = some (k, c) ∧ S.Reaches k c f r t.column t.row) (by
      intro k _
      obtain ⟨b, e, h⟩ := piece_is hp hS k c
      obtain ⟨h1, h2, h3⟩ := column_row ht
      obtain ⟨b0, e0, h0⟩ := single_is ⟨h1, h2⟩
      rw [← h3] at e0
      obtain ⟨b', e', h'⟩ := reach_is (vacant_is hp hS) k c.other h0
      refine ⟨b'.bitand b, by simp only [Color.flip_ok, Piece.new_ok, Res.bind_ok, e, e0, e']; rfl,
        (h'.and h).congr fun f r i => ?_⟩
      constructor
      · rintro ⟨⟨f', r', _, ⟨rfl, rfl⟩, hr⟩, a⟩
        have := reaches_back hr
        rw [show c.other.other = c by cases c <;> rfl] at this
        exact ⟨a, this⟩
      · rintro ⟨a, hr⟩
        exact ⟨⟨_, _, ⟨h1, h2⟩, ⟨rfl, rfl⟩, reaches_back hr⟩, a⟩)
  refine ⟨b, e, h.1, fun s hs => (is_at h hs).trans ?_⟩
  exact ⟨fun ⟨k, _, a⟩ => ⟨k, a⟩, fun ⟨k, a⟩ => ⟨k, by cases k <;> decide, a⟩⟩

/-- C84: check. -/
theorem C84_in_check (p : PartialPosition) (hp : ApiReach p) (S : Shogi) (hS : p.Shows S) (c : Color) :
    ∃ v, p.in_check c = .ok v ∧ (v = true ↔ S.InCheck c) := by
  obtain ⟨b, e, h⟩ := attacks_is hp hS c.other
  obtain ⟨k, e', h'⟩ := piece_is hp hS .King c
  refine ⟨!(b.bitand k).is_empty, by simp only [in_check, Color.flip_ok, Piece.new_ok, Res.bind_ok, e, e']; rfl, ?_⟩
  have hb := h.and h'
  rw [Bool.not_eq_true', ← Bool.not_eq_true, (C17_is_empty _ hb.1).1]
  constructor
  · intro hn
    obtain ⟨s, hn⟩ := Classical.not_forall.1 hn
    obtain ⟨hs, hm⟩ := Classical.not_imp.1 hn
    obtain ⟨h1, h2, _⟩ := column_row hs
    obtain ⟨a, a'⟩ := (is_at hb hs).1 (Classical.not_not.1 hm)
    exact ⟨(s.column, s.row), Shogi.mem_squares.2 ⟨h1, h2⟩, a', a⟩
  · rintro ⟨⟨f, r⟩, hs, a, a'⟩ he
    have i := Shogi.mem_squares.1 hs
    exact he _ (at_valid i.1 i.2) ((hb.2 f r i).2 ⟨a', a⟩)

/-- C84: it makes no difference whether White's pieces are moved as White's, or everything is turned
around with `flip`, moved as Black's, and turned back. -/
theorem C84_turned (free b : Bitboard) (hf : free.Canonical) (hb : b.Canonical) (k : PieceKind) (c : Color) :
    (do return (← free.flip.reach k c b.flip).flip) = free.reach k c.other b := by
  have neg : ∀ d, c.other.turn d = (-(c.turn d).1, -(c.turn d).2) := by
    intro d; cases c <;> simp [Color.turn, Color.facing, Color.other]
  have flip_is : ∀ {b : Bitboard} {X : Nat → Nat → Prop}, b.Is X → b.flip.Is fun f r => X (10 - f) (10 - r) := by
    intro b X h
    refine ⟨flip_canonical b, fun f r i => ?_⟩
    rw [flip_mem_at h.1 i.1 i.2, h.2]
    simp only [Inside] at i ⊢; omega
  have ext : ∀ {a b : Bitboard} {X Y : Nat → Nat → Prop}, a.Is X → b.Is Y → (∀ f r, Inside f r → (X f r ↔ Y f r)) → a = b := by
    intro a b X Y ha hb h
    refine ext_mem ha.1 hb.1 fun s hs => ?_
    obtain ⟨h1, h2, _⟩ := column_row hs
    rw [is_at ha hs, is_at hb hs, h _ _ ⟨h1, h2⟩]
  have self : ∀ {b : Bitboard}, b.Canonical → b.Is fun f r => b.Mem (Square.at f r) := fun h => ⟨h, fun _ _ _ => Iff.rfl⟩
  have off : ∀ (b : Bitboard), b.Canonical → ∀ x y : Int, x.natAbs ≤ 9 → y.natAbs ≤ 9 → ∃ u v, b.flip.offset (x, y) = .ok u ∧
      b.offset (-x, -y) = .ok v ∧ v.Canonical ∧ u = v.flip := by
    intro b hb x y hx hy
    obtain ⟨u, e1, h1⟩ := offset_is (flip_is (self hb)) (x, y) hx hy
    obtain ⟨v, e2, h2⟩ := offset_is (self hb) (-x, -y) (by simpa using hx) (by simpa using hy)
    refine ⟨u, v, e1, e2, h2.1, ext h1 (flip_is h2) fun f r i => ?_⟩
    simp only [Inside] at i ⊢
    constructor
    · rintro ⟨f0, r0, j, m, a, b⟩
      exact ⟨10 - f0, 10 - r0, by omega, m, by omega, by omega⟩
    · rintro ⟨f0, r0, j, m, a, b⟩
      refine ⟨10 - f0, 10 - r0, by omega, ?_, by omega, by omega⟩
      rw [show 10 - (10 - f0) = f0 by omega, show 10 - (10 - r0) = r0 by omega]; exact m
  have or_flip : ∀ a b : Bitboard, a.Canonical → b.Canonical → (a.bitor b).flip = a.flip.bitor b.flip := fun a b ha hb =>
    ext (flip_is ((self ha).or (self hb))) ((flip_is (self ha)).or (flip_is (self hb))) fun _ _ _ => Iff.rfl
  have and_flip : ∀ a b : Bitboard, a.Canonical → b.Canonical → (a.bitand b).flip = a.flip.bitand b.flip := fun a b ha hb =>
    ext (flip_is ((self ha).and (self hb))) ((flip_is (self ha)).and (flip_is (self hb))) fun _ _ _ => Iff.rfl
  have rays : ∀ n x y, Int.natAbs x ≤ 9 → Int.natAbs y ≤ 9 → ∀ b : Bitboard, b.Canonical → ∃ u v, ray free.flip (x, y) n b.flip = .ok u ∧
      ray free (-x, -y) n b = .ok v ∧ v.Canonical ∧ u = v.flip := by
    intro n x y hx hy
    induction n with
    | zero => intro b _; exact ⟨_, _, rfl, rfl, empty_canonical, by decide +kernel⟩
    | succ n ih =>
      intro b hb
      obtain ⟨u, v, e1, e2, hv, rfl⟩ := off b hb x y hx hy
      obtain ⟨u', v', e1', e2', hv', rfl⟩ := ih (v.bitand free) (bitand_canonical hv)
      refine ⟨_, _, ?_, ?_, bitor_canonical hv hv', (or_flip v v' hv hv').symm⟩
      · simp only [ray, e1, Res.bind_ok]; rw [← and_flip v free hv hf, e1']; rfl
      · simp only [ray, e2, e2', Res.bind_ok]; rfl
  have all : ∀ {g g' : Int × Int → Res Bitboard} (l : List (Int × Int)), (∀ d ∈ l, ∃ u v, g d = .ok u ∧ g' d = .ok v ∧ v.Canonical ∧ u = v.flip) →
      ∃ u v, unite g l = .ok u ∧ unite g' l = .ok v ∧ v.Canonical ∧ u = v.flip := by
    intro g g' l h
    induction l with
    | nil => exact ⟨_, _, rfl, rfl, empty_canonical, by decide +kernel⟩
    | cons d l ih =>
      obtain ⟨u, v, e1, e2, hv, rfl⟩ := h d (by simp)
      obtain ⟨u', v', e1', e2', hv', rfl⟩ := ih fun d hd => h d (by simp [hd])
      exact ⟨_, _, by simp only [unite, e1, e1', Res.bind_ok]; rfl, by simp only [unite, e2, e2', Res.bind_ok]; rfl,
        bitor_canonical hv hv', (or_flip v v' hv hv').symm⟩
  obtain ⟨u, v, e1, e2, hv, rfl⟩ := all (g := fun d => b.flip.offset (c.turn d)) (g' := fun d => b.offset (c.other.turn d)) k.steps
    fun d hd => by rw [neg]; exact off b hb _ _ (turn_short (.inl hd)).1 (turn_short (c := c) (.inl hd)).2
  obtain ⟨u', v', e1', e2', hv', rfl⟩ := all (g := fun d => ray free.flip (c.turn d) 8 b.flip) (g' := fun d => ray free (c.other.turn d) 8 b) k.slides
    fun d hd => by rw [neg]; exact rays 8 _ _ (turn_short (.inr hd)).1 (turn_short (c := c) (.inr hd)).2 b hb
  simp only [reach, e1, e2, e1', e2', Res.bind_ok, Res.pure_eq]
  rw [← or_flip v v' hv hv', (C19_involutive _ (bitor_canonical hv hv')).1]

/-- Black's lance on 5i, Black's pawn on 5f, White's king on 5d, White's bishop on 9a. -/
private def sample : Res PartialPosition := do
  let p ← PartialPosition.empty.piece_set (Square.at 5 9) (some (Piece.mk' .Lance .Black))
  let p ← p.piece_set (Square.at 5 6) (some (Piece.mk' .Pawn .Black))
  let p ← p.piece_set (Square.at 5 4) (some (Piece.mk' .King .White))
  p.piece_set (Square.at 9 1) (some (Piece.mk' .Bishop .White))

/-- Non-vacuity: the pawn attacks 5e and stops the lance, which gets as far as the pawn; White's king and
bishop attack 5e; White is not in check, but is when the pawn is taken away. -/
example : ∃ p, ApiReach p ∧ (∃ S, p.Shows S) ∧
    (p.attacks .Black >>= fun b => b.iterate 82) = .ok (some [Square.at 5 5, Square.at 5 6, Square.at 5 7, Square.at 5 8]) ∧
    p.in_check .White = .ok false ∧ (p.attackers .White (Square.at 5 5) >>= fun b => b.iterate 82) =
      .ok (some [Square.at 5 4, Square.at 9 1]) ∧
    ∃ q, p.piece_set (Square.at 5 6) none = .ok q ∧ q.in_check .White = .ok true := by
  have t : ∀ d : Build, (match (@sample ⟨d⟩) with
      | .ok p => decide ((@attacks ⟨d⟩ p .Black >>= fun b => @Bitboard.iterate ⟨d⟩ 82 b) =
            .ok (some [Square.at 5 5, Square.at 5 6, Square.at 5 7, Square.at 5 8])) &&
          decide (@in_check ⟨d⟩ p .White = .ok false) &&
          decide ((@attackers ⟨d⟩ p .White (Square.at 5 5) >>= fun b => @Bitboard.iterate ⟨d⟩ 82 b) =
            .ok (some [Square.at 5 4, Square.at 9 1])) &&
          (match @piece_set ⟨d⟩ p (Square.at 5 6) none with
            | .ok q => decide (@in_check ⟨d⟩ q .White = .ok true)
            | _ => false)
      | _ => false) = true := by
    rintro ⟨_ | _, _ | _⟩ <;> decide +kernel
  have put : ∀ p, ApiReach p → ∀ (s : Square) x, s.Valid → Piece.Valid x → ∃ q, p.piece_set s (some x) = .ok q ∧ ApiReach q := by
    intro p hp s x hs hx
    obtain ⟨q, e, _⟩ := C26_piece_set p hp s hs (some x) (by rintro _ ⟨⟩; exact hx)
    exact ⟨q, e, .step hp (.piece_set hs (by rintro _ ⟨⟩; exact hx) e)⟩
  obtain ⟨p1, e1, h1⟩ := put _ .empty (Square.at 5 9) (Piece.mk' .Lance .Black) (by decide) (by decide)
  obtain ⟨p2, e2, h2⟩ := put _ h1 (Square.at 5 6) (Piece.mk' .Pawn .Black) (by decide) (by decide)
  obtain ⟨p3, e3, h3⟩ := put _ h2 (Square.at 5 4) (Piece.mk' .King .White) (by decide) (by decide)
  obtain ⟨p4, e4, h4⟩ := put _ h3 (Square.at 9 1) (Piece.mk' .Bishop .White) (by decide) (by decide)
  have e : sample = .ok p4 := by simp only [sample, e1, e2, e3, e4, Res.bind_ok]
  have t := t P.build
  change (match sample with | .ok p => _ | _ => false) = true at t
  rw [e] at t
  obtain ⟨q, eq, _⟩ := C26_piece_set p4 h4 (Square.at 5 6) (by decide) none (by rintro _ ⟨⟩)
  simp only [Bool.and_eq_true, decide_eq_true_eq] at t
  obtain ⟨⟨⟨t1, t2⟩, t3⟩, t4⟩ := t
  refine ⟨p4, h4, C53_total p4 h4, t1, t2, t3, q, eq, ?_⟩
  change (match p4.piece_set (Square.at 5 6) none with | .ok q => _ | _ => false) = true at t4
  rw [eq] at t4
  exact of_decide_eq_true t4

end ShogiCore
