import Verif.Spec.Mirror
import Verif.Spec.Machine
import Verif.Props.Square
import Verif.Props.Bitboard
import Verif.Props.Sfen
import Verif.Props.Game
import Verif.Props.Position

/- C60: the two players are treated alike. -/

set_option linter.unusedSectionVars false

namespace ShogiCore
open PartialPosition
variable [P : Profile]

omit P in
theorem swapColor_mk (k : PieceKind) (c : Color) :
    swapColor (.ok (some (Piece.mk' k c))) = .ok (some (Piece.mk' k c.other)) := by
  cases k <;> cases c <;> rfl

omit P in
theorem other_inj {c d : Color} (h : c.other = d.other) : c = d := by
  cases c <;> cases d <;> first | rfl | cases h

omit P in
theorem opposite_inj {s t u : Square} (h : s.opposite u) (h' : t.opposite u) : s = t := by
  have h1 : s.val.toNat + u.val.toNat = 82 := h
  have h2 : t.val.toNat + u.val.toNat = 82 := h'
  have e : s.val = t.val := BitVec.eq_of_toNat_eq (by omega)
  cases s; cases t
  exact congrArg Square.mk e

omit P in
theorem opposite_symm {s t : Square} (h : s.opposite t) : t.opposite s := by
  have h1 : s.val.toNat + t.val.toNat = 82 := h
  exact (Nat.add_comm _ _).trans h1

omit P in
theorem opposite_valid {s t : Square} (h : s.opposite t) (hs : s.Valid) : t.Valid := by
  have h1 : s.val.toNat + t.val.toNat = 82 := h
  have h2 : 1 ≤ s.val.toNat ∧ s.val.toNat ≤ 81 := hs
  exact show 1 ≤ t.val.toNat ∧ t.val.toNat ≤ 81 by omega

omit P in
theorem opposite_exists {s : Square} (hs : s.Valid) : ∃ t, s.opposite t := by
  have h2 : 1 ≤ s.val.toNat ∧ s.val.toNat ≤ 81 := hs
  refine ⟨⟨BitVec.ofNat 8 (82 - s.val.toNat)⟩, ?_⟩
  simp only [Square.opposite, BitVec.toNat_ofNat]; omega

/-- `Square::flip` is that correspondence. -/
theorem C60_flip (s t : Square) (hs : s.Valid) : s.flip = .ok t ↔ s.opposite t := by
  have hi := Square.idx0_lt hs
  have h2 : 1 ≤ s.val.toNat ∧ s.val.toNat ≤ 81 := hs
  have key : s.opposite (Square.ofIdx (80 - s.idx0)) := by
    simp only [Square.opposite, Square.ofIdx, Square.idx0, BitVec.toNat_ofNat]; omega
  rw [Square.flip_ok hs]
  constructor
  · intro e; cases e; exact key
  · intro h
    rw [opposite_inj (opposite_symm h) (opposite_symm key)]

namespace PartialPosition

theorem Mirror.at {p p' : PartialPosition} (h : p.Mirror p') {s s' : Square} (hs : s.Valid)
    (ho : s.opposite s') : p'.piece_at s' = swapColor (p.piece_at s) :=
  h.board s s' hs (opposite_valid ho hs) ho

theorem Mirror.some_at {p p' : PartialPosition} (h : p.Mirror p') {s s' : Square} (hs : s.Valid)
    (ho : s.opposite s') {k c} (e : p.piece_at s = .ok (some (Piece.mk' k c))) :
    p'.piece_at s' = .ok (some (Piece.mk' k c.other)) := by
  rw [h.at hs ho, e, swapColor_mk]

theorem Mirror.none_at {p p' : PartialPosition} (h : p.Mirror p') {s s' : Square} (hs : s.Valid)
    (ho : s.opposite s') (e : p.piece_at s = .ok none) : p'.piece_at s' = .ok none := by
  rw [h.at hs ho, e]; rfl

/-- Acceptance carries over. -/
theorem Mirror.acceptable {p p' : PartialPosition} (h : p.Mirror p') {m m' : Move} (hm : m.Valid)
    (hmm : m.Mirror m') (ha : p.Acceptable m) : p'.Acceptable m' := by
  cases hmm with
  | @normal s t s' t' pr h1 h2 =>
    obtain ⟨k, a1, a2, a3⟩ := ha
    refine ⟨k, by rw [h.side]; exact h.some_at hm.1 h1 a1, ?_, a3⟩
    rcases a2 with a2 | ⟨l, hl, a2⟩
    · exact .inl (h.none_at hm.2 h2 a2)
    · exact .inr ⟨l, hl, by rw [h.side]; exact h.some_at hm.2 h2 a2⟩
  | @drop k c t t' h2 =>
    obtain ⟨j, n, a1, a2, a3, a4, a5⟩ := ha
    obtain ⟨rfl, rfl⟩ := Piece.mk'_inj a1
    exact ⟨k, n, by rw [h.side], a2, h.none_at hm.2 h2 a3, by rw [h.hands _ _ a2]; exact a4, a5⟩

theorem Mirror.symm {p p' : PartialPosition} (hp : ApiReach p) (h : p.Mirror p') : p'.Mirror p := by
  refine ⟨?_, ?_, by rw [h.side, Color.other_other], h.ply.symm⟩
  · intro s s' hs hs' ho
    rw [h.board s' s hs' hs (opposite_symm ho)]
    rcases C25_total p hp s' hs' with e | ⟨k, c, e⟩
    · rw [e]; rfl
    · rw [e, swapColor_mk, swapColor_mk, Color.other_other]
  · intro k c hk
    have := h.hands k c.other hk
    rw [Color.other_other] at this
    exact this.symm

end PartialPosition

omit P in
theorem Move.Mirror.symm {m m' : Move} (h : m.Mirror m') : m'.Mirror m := by
  cases h with
  | normal h1 h2 => exact .normal (opposite_symm h1) (opposite_symm h2)
  | @drop k c t t' h2 =>
    have := Move.Mirror.drop (k := k) (c := c.other) (opposite_symm h2)
    rwa [Color.other_other] at this

omit P in
theorem Move.Mirror.valid {m m' : Move} (h : m.Mirror m') (hm : m.Valid) : m'.Valid := by
  cases h with
  | normal h1 h2 => exact ⟨opposite_valid h1 hm.1, opposite_valid h2 hm.2⟩
  | @drop k c t t' h2 => exact ⟨Piece.mk'_valid _ _, opposite_valid h2 hm.2⟩

/-- C60: a move is accepted in a position iff the mirrored move is accepted in the mirrored
position, and then the resulting positions mirror each other again. -/
theorem C60_make_move (p p' : PartialPosition) (hp : ApiReach p) (hp' : ApiReach p')
    (h : p.Mirror p') (m m' : Move) (hm : m.Valid) (hmm : m.Mirror m') :
    ∃ q q' v, p.make_move m = .ok (q, v) ∧ p'.make_move m' = .ok (q', v) ∧ q.Mirror q' := by
  have hm' := hmm.valid hm
  by_cases ha : p.Acceptable m
  rotate_left
  · obtain ⟨q, e⟩ := (C28_accept_iff p hp m hm).2.1 ha
    have ha' : ¬ p'.Acceptable m' := fun a => ha ((h.symm hp).acceptable hm' hmm.symm a)
    obtain ⟨q', e'⟩ := (C28_accept_iff p' hp' m' hm').2.1 ha'
    refine ⟨q, q', none, e, e', ?_⟩
    rw [C27_make_move p q hp m hm e, C27_make_move p' q' hp' m' hm' e']; exact h
  have ha' := h.acceptable hm hmm ha
  obtain ⟨q, e⟩ := (C28_accept_iff p hp m hm).1.1 ha
  obtain ⟨q', e'⟩ := (C28_accept_iff p' hp' m' hm').1.1 ha'
  have hq := C29_effect p q hp m hm e
  have hq' := C29_effect p' q' hp' m' hm' e'
  refine ⟨q, q', some (), e, e', ?_, ?_, ?_, ?_⟩
  · intro u u' hu hu' ho
    cases hmm with
    | @normal s t s' t' pr h1 h2 =>
      obtain ⟨⟨k, k1, a1, a2, a3⟩, a4, a5⟩ := hq.board
      obtain ⟨⟨l, l1, b1, b2, b3⟩, b4, b5⟩ := hq'.board
      rw [h.some_at hm.1 h1 a1, h.side] at b1
      obtain ⟨rfl, _⟩ := Piece.mk'_inj (Option.some.inj (Res.ok.inj b1))
      have hkk : k1 = l1 := by
        cases pr
        · simp only [Bool.false_eq_true, if_false] at a2 b2; rw [a2, b2]
        · simp only [if_true, ← PieceKind.promote_iff] at a2 b2
          rw [a2] at b2; exact Option.some.inj b2
      subst hkk
      by_cases e1 : u = t
      · subst e1
        rw [opposite_inj (opposite_symm ho) (opposite_symm h2), a3, b3, swapColor_mk, h.side]
      · have e1' : u' ≠ t' := by
          rintro rfl; exact e1 (opposite_inj ho h2)
        by_cases e2 : u = s
        · subst e2
          rw [opposite_inj (opposite_symm ho) (opposite_symm h1), a4, b4]; rfl
        · have e2' : u' ≠ s' := by
            rintro rfl; exact e2 (opposite_inj ho h1)
          rw [a5 u hu e2 e1, b5 u' hu' e2' e1', h.at hu ho]
    | @drop k c t t' h2 =>
      obtain ⟨a1, a2⟩ := hq.board
      obtain ⟨b1, b2⟩ := hq'.board
      by_cases e1 : u = t
      · subst e1
        rw [opposite_inj (opposite_symm ho) (opposite_symm h2), a1, b1, swapColor_mk]
      · have e1' : u' ≠ t' := by
          rintro rfl; exact e1 (opposite_inj ho h2)
        rw [a2 u hu e1, b2 u' hu' e1', h.at hu ho]
  · intro k c hk
    obtain ⟨n, n1, a1, a2, a3⟩ := hq.hands k c hk
    obtain ⟨o, o1, b1, b2, b3⟩ := hq'.hands k c.other hk
    rw [h.hands k c hk, a1] at b1
    cases b1
    rw [a2, b2]
    congr 2
    cases hmm with
    | @normal s t s' t' pr h1 h2 =>
      have hcap : p.Captures t k c ↔ p'.Captures t' k c.other := by
        simp only [Captures, h.side, Color.other_other]
        constructor
        · rintro ⟨rfl, l, e1, e2⟩
          refine ⟨rfl, l, e1, ?_⟩
          have := h.some_at hm.2 h2 e2
          rwa [Color.other_other] at this
        · rintro ⟨e0, l, e1, e2⟩
          refine ⟨other_inj e0, l, e1, ?_⟩
          exact (h.symm hp).some_at hm'.2 (opposite_symm h2) e2
      simp only [HandAfter] at a3 b3
      by_cases hc : p.Captures t k c
      · rw [a3.1 hc, b3.1 (hcap.1 hc)]
      · rw [a3.2 hc, b3.2 (fun x => hc (hcap.2 x))]
    | @drop j d t t' h2 =>
      simp only [HandAfter] at a3 b3
      by_cases hx : Piece.mk' j d = Piece.mk' k c
      · obtain ⟨rfl, rfl⟩ := Piece.mk'_inj hx
        rw [if_pos rfl] at a3 b3
        rw [a3.2, b3.2]
      · rw [if_neg hx] at a3
        rw [if_neg (fun e => hx (by
          obtain ⟨rfl, e1⟩ := Piece.mk'_inj e
          rw [other_inj e1]))] at b3
        rw [a3, b3]
  · rw [hq'.side, hq.side, h.side]
  · have h1 := hq.ply
    have h2 := hq'.ply
    rw [h.ply] at h2
    exact BitVec.eq_of_toNat_eq (h2.trans h1.symm)

/-- C60: the same for whole games: the same calls succeed and the final positions mirror each
other. -/
theorem C60_games (p p' : PartialPosition) (hp : ApiReach p) (hp' : ApiReach p') (h : p.Mirror p')
    (ms ms' : List Move) (hms : ∀ m ∈ ms, m.Valid) (hmm : Moves.Mirror ms ms') :
    ∃ q q' v, p.playAll ms = .ok (q, v) ∧ p'.playAll ms' = .ok (q', v) ∧ q.Mirror q' := by
  induction hmm generalizing p p' with
  | nil => exact ⟨p, p', [], rfl, rfl, h⟩
  | @cons m m' ms ms' h1 _ ih =>
    have hv := hms m (by simp)
    obtain ⟨q, q', v, e, e', hq⟩ := C60_make_move p p' hp hp' h m m' hv h1
    obtain ⟨r, r', w, f, f', hr⟩ := ih q q' (.step hp (.make_move hv e))
      (.step hp' (.make_move (h1.valid hv) e')) hq (fun x hx => hms x (by simp [hx]))
    refine ⟨r, r', v.isSome :: w, ?_, ?_, hr⟩
    · simp only [playAll, e, f, Res.bind_ok, Res.pure_eq]
    · simp only [playAll, e', f', Res.bind_ok, Res.pure_eq]

/-- C60: the bitboards of a mirrored position are the flipped bitboards of the other colour. -/
theorem C60_bitboards (p p' : PartialPosition) (hp : ApiReach p) (hp' : ApiReach p')
    (h : p.Mirror p') :
    (∀ c, ∃ b, p.player_bitboard c = .ok b ∧ p'.player_bitboard c.other = .ok b.flip) ∧
    (∀ k, ∃ b, p.piece_kind_bitboard k = .ok b ∧ p'.piece_kind_bitboard k = .ok b.flip) ∧
    (∀ k c, ∃ b, p.piece_bitboard (Piece.mk' k c) = .ok b ∧
      p'.piece_bitboard (Piece.mk' k c.other) = .ok b.flip) ∧
    p'.occupied_bitboard = p.occupied_bitboard.flip ∧
    p'.vacant_bitboard = p.vacant_bitboard.flip := by
  obtain ⟨c1, c2, c3, c4, c5⟩ := C25_canonical p hp
  obtain ⟨d1, d2, d3, d4, d5⟩ := C25_canonical p' hp'
  have h' := h.symm hp
  have ext : ∀ b b' : Bitboard, b.Canonical → b'.Canonical →
      (∀ s s' : Square, s.Valid → s'.Valid → s.opposite s' → (b'.Mem s' ↔ b.Mem s)) →
      b' = b.flip := by
    intro b b' hb hb' hmem
    refine Bitboard.ext_bit hb' (Bitboard.flip_canonical b) fun i hi => ?_
    have hv := Square.ofIdx_valid hi
    obtain ⟨t, ht⟩ := opposite_exists hv
    have tv := opposite_valid ht hv
    obtain ⟨t', e, m⟩ := C19_flip b hb _ hv
    have := opposite_inj (opposite_symm ((C60_flip _ _ hv).1 e)) (opposite_symm ht)
    subst this
    have m2 := hmem t' _ tv hv (opposite_symm ht)
    rw [← m, Bitboard.mem_iff _ hv, Bitboard.mem_iff _ hv, Square.idx0_ofIdx hi] at m2
    exact Bool.eq_iff_iff.2 m2
  have iff_some : ∀ {s s' : Square} k c, s.Valid → s'.Valid → s.opposite s' →
      (p'.piece_at s' = .ok (some (Piece.mk' k c.other)) ↔ p.piece_at s = .ok (some (Piece.mk' k c))) := by
    intro s s' k c hs hs' ho
    refine ⟨fun e => ?_, h.some_at hs ho⟩
    have := h'.some_at hs' (opposite_symm ho) e
    rwa [Color.other_other] at this
  have iff_none : ∀ {s s' : Square}, s.Valid → s'.Valid → s.opposite s' →
      (p'.piece_at s' = .ok none ↔ p.piece_at s = .ok none) :=
    fun hs hs' ho => ⟨h'.none_at hs' (opposite_symm ho), h.none_at hs ho⟩
  have hb := C25_bitboards p hp
  have hb' := C25_bitboards p' hp'
  refine ⟨fun c => ?_, fun k => ?_, fun k c => ?_, ?_, ?_⟩
  · obtain ⟨b, e, _⟩ := (hb ⟨1⟩ (by decide)).2.1 c
    obtain ⟨b', e', _⟩ := (hb' ⟨1⟩ (by decide)).2.1 c.other
    refine ⟨b, e, e'.trans (congrArg Res.ok (ext b b' (c2 _ _ e) (d2 _ _ e') ?_))⟩
    intro s s' hs hs' ho
    obtain ⟨x, ex, mx⟩ := (hb s hs).2.1 c
    obtain ⟨y, ey, my⟩ := (hb' s' hs').2.1 c.other
    rw [e] at ex; cases ex
    rw [e'] at ey; cases ey
    rw [mx, my]
    exact exists_congr fun k => iff_some k c hs hs' ho
  · obtain ⟨b, e, _⟩ := (hb ⟨1⟩ (by decide)).2.2.1 k
    obtain ⟨b', e', _⟩ := (hb' ⟨1⟩ (by decide)).2.2.1 k
    refine ⟨b, e, e'.trans (congrArg Res.ok (ext b b' (c3 _ _ e) (d3 _ _ e') ?_))⟩
    intro s s' hs hs' ho
    obtain ⟨x, ex, mx⟩ := (hb s hs).2.2.1 k
    obtain ⟨y, ey, my⟩ := (hb' s' hs').2.2.1 k
    rw [e] at ex; cases ex
    rw [e'] at ey; cases ey
    rw [mx, my]
    constructor
    · rintro ⟨c, e⟩
      refine ⟨c.other, (iff_some k c.other hs hs' ho).1 ?_⟩
      rwa [Color.other_other]
    · rintro ⟨c, e⟩
      exact ⟨c.other, (iff_some k c hs hs' ho).2 e⟩
  · obtain ⟨b, e, _⟩ := (hb ⟨1⟩ (by decide)).1 k c
    obtain ⟨b', e', _⟩ := (hb' ⟨1⟩ (by decide)).1 k c.other
    refine ⟨b, e, e'.trans (congrArg Res.ok (ext b b' (c1 _ _ (Piece.mk'_valid _ _) e)
      (d1 _ _ (Piece.mk'_valid _ _) e') ?_))⟩
    intro s s' hs hs' ho
    obtain ⟨x, ex, mx⟩ := (hb s hs).1 k c
    obtain ⟨y, ey, my⟩ := (hb' s' hs').1 k c.other
    rw [e] at ex; cases ex
    rw [e'] at ey; cases ey
    rw [mx, my]
    exact iff_some k c hs hs' ho
  · refine ext _ _ c4 d4 fun s s' hs hs' ho => ?_
    rw [(hb s hs).2.2.2.1, (hb' s' hs').2.2.2.1, h.at hs ho]
    rcases C25_total p hp s hs with e | ⟨k, c, e⟩ <;> rw [e]
    · simp [swapColor]
    · rw [swapColor_mk]; simp
  · refine ext _ _ c5 d5 fun s s' hs hs' ho => ?_
    rw [(hb s hs).2.2.2.2, (hb' s' hs').2.2.2.2]
    exact iff_none hs hs' ho

/-- C60: every position has a mirror image that can be built through the API (for ply 0, which
`ply_set` refuses, no claim is made). -/
theorem C60_exists (p : PartialPosition) (hp : ApiReach p) (hply : p.get_ply ≠ 0) :
    ∃ p', ApiReach p' ∧ p.Mirror p' := by
  obtain ⟨p', h1, h2, h3, h4, h5⟩ := C36_all_positions
    (fun s => match swapColor (p.piece_at ⟨82 - s.val⟩) with
      | .ok (some x) => if 1 ≤ s.val.toNat ∧ s.val.toNat ≤ 81 then some x else none
      | _ => none) (by
      intro s x e
      split at e
      · rename_i y hy
        split at e
        · rename_i hv
          cases e
          have hv' : (⟨82 - s.val⟩ : Square).Valid := by
            have e82 : (82 : U8).toNat = 82 := rfl
            simp only [Square.Valid, BitVec.toNat_sub, e82]; omega
          rcases C25_total p hp _ hv' with e | ⟨k, c, e⟩
          · rw [e] at hy; cases hy
          · rw [e, swapColor_mk] at hy; cases hy; exact Piece.mk'_valid _ _
        · cases e
      · cases e)
    (fun c => p.handOf c.other) (fun c => (reach_ok hp).hand _) p.side_to_move.other p.get_ply hply
  refine ⟨p', h1, ?_, ?_, h4, h5⟩
  · intro s s' hs hs' ho
    have ho' : s.val.toNat + s'.val.toNat = 82 := ho
    have hv : 1 ≤ s'.val.toNat ∧ s'.val.toNat ≤ 81 := hs'
    have es : (⟨82 - s'.val⟩ : Square) = s := by
      refine Square.ext' (BitVec.eq_of_toNat_eq ?_)
      have e82 : (82 : U8).toNat = 82 := rfl
      simp only [BitVec.toNat_sub, e82]; omega
    rw [h2 s' hs', es]
    rcases C25_total p hp s hs with e | ⟨k, c, e⟩
    · rw [e]; rfl
    · rw [e, swapColor_mk]; simp only [if_pos hv]
  · intro k c hk
    have := h3 c.other
    rw [hand_of_a_player_ok] at this
    rw [hand_ok, hand_ok, Res.ok.inj this, Color.other_other]

/-- Non-vacuity: the starting position, its mirror, the capture 8h2b+ and a drop: after
7g7f 3c3d the sequence 8h2b+ 3a2b B*5e is accepted, and so is its mirror image. -/
example : ∃ p', ApiReach p' ∧ sp0.Mirror p' ∧ ∃ q q',
    sp0.playAll [.Normal (Square.at 7 7) (Square.at 7 6) false,
      .Normal (Square.at 3 3) (Square.at 3 4) false, .Normal (Square.at 8 8) (Square.at 2 2) true,
      .Normal (Square.at 3 1) (Square.at 2 2) false, .Drop (Piece.mk' .Bishop .Black) (Square.at 5 5)] =
      .ok (q, [true, true, true, true, true]) ∧
    p'.playAll [.Normal (Square.at 3 3) (Square.at 3 4) false,
      .Normal (Square.at 7 7) (Square.at 7 6) false, .Normal (Square.at 2 2) (Square.at 8 8) true,
      .Normal (Square.at 7 9) (Square.at 8 8) false, .Drop (Piece.mk' .Bishop .White) (Square.at 5 5)] =
      .ok (q', [true, true, true, true, true]) ∧ q.Mirror q' := by
  have hp : ApiReach sp0 := .startpos startpos_ok
  obtain ⟨p', hp', h⟩ := C60_exists sp0 hp (by decide +kernel)
  refine ⟨p', hp', h, ?_⟩
  have key : ∀ d : Build, (Prod.snd <$> (@playAll ⟨d⟩ sp0 [.Normal (Square.at 7 7) (Square.at 7 6) false,
      .Normal (Square.at 3 3) (Square.at 3 4) false, .Normal (Square.at 8 8) (Square.at 2 2) true,
      .Normal (Square.at 3 1) (Square.at 2 2) false,
      .Drop (Piece.mk' .Bishop .Black) (Square.at 5 5)])) =
      Res.ok [true, true, true, true, true] := by decide +kernel
  have key := profile_ind (motive := fun P => (Prod.snd <$> (@playAll P sp0
      [.Normal (Square.at 7 7) (Square.at 7 6) false,
      .Normal (Square.at 3 3) (Square.at 3 4) false, .Normal (Square.at 8 8) (Square.at 2 2) true,
      .Normal (Square.at 3 1) (Square.at 2 2) false,
      .Drop (Piece.mk' .Bishop .Black) (Square.at 5 5)])) =
      Res.ok [true, true, true, true, true]) key P
  obtain ⟨q, q', v, e, e', hq⟩ := C60_games sp0 p' hp hp' h
    [.Normal (Square.at 7 7) (Square.at 7 6) false,
      .Normal (Square.at 3 3) (Square.at 3 4) false, .Normal (Square.at 8 8) (Square.at 2 2) true,
      .Normal (Square.at 3 1) (Square.at 2 2) false, .Drop (Piece.mk' .Bishop .Black) (Square.at 5 5)]
    _ (by
      simp only [List.forall_mem_cons, List.not_mem_nil, false_imp_iff, implies_true, and_true]
      exact ⟨⟨by decide, by decide⟩, ⟨by decide, by decide⟩, ⟨by decide, by decide⟩,
        ⟨by decide, by decide⟩, ⟨by decide, by decide⟩⟩)
    (.cons (.normal (s' := Square.at 3 3) (t' := Square.at 3 4) rfl rfl)
    (.cons (.normal (s' := Square.at 7 7) (t' := Square.at 7 6) rfl rfl)
    (.cons (.normal (s' := Square.at 2 2) (t' := Square.at 8 8) rfl rfl)
    (.cons (.normal (s' := Square.at 7 9) (t' := Square.at 8 8) rfl rfl)
    (.cons (.drop (t' := Square.at 5 5) rfl) .nil)))))
  rw [e] at key
  cases (Res.ok.inj key : v = _)
  exact ⟨q, q', e, e', hq⟩

end ShogiCore
