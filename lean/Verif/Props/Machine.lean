import Verif.Props.Game
import Verif.Props.Position
import Verif.Spec.Machine

/- C53: the position refines the abstract shogi machine. -/

namespace ShogiCore
namespace PartialPosition

variable [P : Profile]
set_option linter.unusedSectionVars false

omit P in
theorem promotedKind_iff (k k' : PieceKind) : promotedKind k = some k' ↔ PromotesTo k k' := by
  constructor
  · cases k <;> simp only [promotedKind, Option.some.injEq, reduceCtorEq, false_implies] <;>
      (rintro rfl; constructor)
  · rintro ⟨⟩ <;> rfl

omit P in
theorem column_row {s : Square} (h : s.Valid) :
    (1 ≤ s.column ∧ s.column ≤ 9) ∧ (1 ≤ s.row ∧ s.row ≤ 9) ∧ s = Square.at s.column s.row := by
  obtain ⟨v⟩ := s
  simp only [Square.Valid, Square.column, Square.row, Square.at] at *
  refine ⟨by omega, by omega, ?_⟩
  congr 1
  apply BitVec.eq_of_toNat_eq
  rw [BitVec.toNat_ofNat]
  omega

omit P in
theorem at_inj {f r f' r' : Nat} (hf : 1 ≤ f ∧ f ≤ 9) (hr : 1 ≤ r ∧ r ≤ 9) (hf' : 1 ≤ f' ∧ f' ≤ 9)
    (hr' : 1 ≤ r' ∧ r' ≤ 9) (e : Square.at f r = Square.at f' r') : f = f' ∧ r = r' := by
  have := congrArg (fun s : Square => s.val.toNat) e
  simp only [Square.at, BitVec.toNat_ofNat] at this
  rw [Nat.mod_eq_of_lt (by omega), Nat.mod_eq_of_lt (by omega)] at this
  omega

omit P in
theorem at_valid {f r : Nat} (hf : 1 ≤ f ∧ f ≤ 9) (hr : 1 ≤ r ∧ r ≤ 9) : (Square.at f r).Valid := by
  simp only [Square.Valid, Square.at, BitVec.toNat_ofNat]
  rw [Nat.mod_eq_of_lt (by omega)]; omega

theorem Shows.at {p : PartialPosition} {S : Shogi} (h : p.Shows S) {s : Square} (hs : s.Valid) :
    p.piece_at s = .ok (S.board s.column s.row).piece := by
  obtain ⟨a, b, c⟩ := column_row hs
  have := h.board _ _ a b
  rwa [← c] at this

omit P in
theorem colorOfPiece_mk (k : PieceKind) (c : Color) : colorOfPiece (Piece.mk' k c) = c := by
  cases k <;> cases c <;> rfl

omit P in
theorem piece_some (k : PieceKind) (c : Color) : Cell.piece (some (k, c)) = some (Piece.mk' k c) := rfl
omit P in
theorem piece_none : Cell.piece none = none := rfl

omit P in
theorem piece_eq_some {x : Cell} {k : PieceKind} {c : Color}
    (h : x.piece = some (Piece.mk' k c)) : x = some (k, c) := by
  cases x with
  | none => cases h
  | some y =>
    obtain ⟨k', c'⟩ := y
    obtain ⟨rfl, rfl⟩ := Piece.mk'_inj (Option.some.inj h)
    rfl

omit P in
theorem base_inHand {k : PieceKind} (h : k ≠ .King) : k.base.InHand := by
  cases k <;> first | trivial | exact absurd rfl h

omit P in
theorem other_ne (c : Color) : c.other ≠ c := by cases c <;> decide
omit P in
theorem eq_other {c d : Color} (h : d ≠ c) : d = c.other := by
  cases c <;> cases d <;> first | rfl | exact absurd rfl h

/-- The verdict. -/
theorem acceptable_step {p : PartialPosition} {S : Shogi} (h : p.Shows S) {m : Move}
    (hm : m.Valid) : p.Acceptable m ↔ (S.step m.action).isSome := by
  cases m with
  | Normal s t pr =>
    simp only [Acceptable, Move.action, Shogi.step, h.at hm.1, h.at hm.2, h.side, Res.ok.injEq]
    generalize S.board s.column s.row = x
    generalize S.board t.column t.row = y
    constructor
    · rintro ⟨k, hx, hy, hp⟩
      have hx := piece_eq_some hx
      subst hx
      simp only [ne_eq, not_true_eq_false, if_false]
      have : ∃ k', Shogi.arrival k pr = some k' := by
        unfold Shogi.arrival
        cases pr with
        | false => exact ⟨k, rfl⟩
        | true => obtain ⟨k', hk⟩ := hp rfl; exact ⟨k', by rw [if_pos rfl]; exact (promotedKind_iff _ _).2 hk⟩
      obtain ⟨k', hk'⟩ := this
      rw [hk']
      rcases hy with hy | ⟨l, hl, hy⟩
      · cases y with
        | none => rfl
        | some => cases hy
      · have hy := piece_eq_some hy
        subst hy
        simp only [other_ne, false_or, hl, if_false, Option.isSome_some]
    · intro hs
      cases x with
      | none => cases hs
      | some x =>
        obtain ⟨k, c⟩ := x
        simp only at hs
        split at hs
        · cases hs
        · rename_i hc
          have hc : c = S.side := Classical.not_not.1 hc
          subst hc
          split at hs
          · cases hs
          · rename_i k' hk'
            refine ⟨k, rfl, ?_, ?_⟩
            · cases y with
              | none => exact .inl rfl
              | some y =>
                obtain ⟨l, d⟩ := y
                simp only at hs
                split at hs
                · cases hs
                · rename_i hd
                  rw [not_or] at hd
                  exact .inr ⟨l, hd.2, by rw [← eq_other hd.1]; rfl⟩
            · rintro rfl
              exact ⟨k', (promotedKind_iff _ _).1 (by simpa [Shogi.arrival] using hk')⟩
  | Drop x t =>
    obtain ⟨hx, ht⟩ := hm
    obtain ⟨k, c, rfl⟩ := Piece.exists_mk' hx
    simp only [Acceptable, Move.action, Shogi.step, h.at ht, h.side, Res.ok.injEq, kindOfPiece_mk,
      colorOfPiece_mk]
    constructor
    · rintro ⟨k', n, e, hk, hy, hn, h0⟩
      obtain ⟨rfl, rfl⟩ := Piece.mk'_inj e
      obtain ⟨n', hn', e'⟩ := h.hand S.side k hk
      rw [hn] at hn'; cases hn'
      have hb : S.board t.column t.row = none := by
        cases hb : S.board t.column t.row with
        | none => rfl
        | some => rw [hb] at hy; cases hy
      have : S.hand S.side k ≠ 0 := by
        rw [← e']; intro e; exact h0 (BitVec.eq_of_toNat_eq e)
      rw [if_pos ⟨rfl, hk, hb, this⟩]; rfl
    · intro hs
      split at hs
      · rename_i hc
        obtain ⟨rfl, hk, hb, hn⟩ := hc
        obtain ⟨n, hn', e'⟩ := h.hand S.side k hk
        refine ⟨k, n, rfl, hk, by rw [hb]; rfl, hn', ?_⟩
        rintro rfl
        exact hn (by rw [← e']; rfl)
      · cases hs

/-- The effect. -/
theorem played_step {p q : PartialPosition} {S T : Shogi} (h : p.Shows S) {m : Move} (hm : m.Valid)
    (hb : ∀ k, k.InHand → S.hand S.side k < 255) (hP : p.Played m q)
    (hT : S.step m.action = some T) : q.Shows T := by
  have hply : q.get_ply.toNat = (S.ply + 1) % 65536 := by rw [hP.ply, h.ply]; omega
  have hside : q.side_to_move = S.side.other := by rw [hP.side, h.side]
  cases m with
  | Normal s t pr =>
    obtain ⟨hs, ht⟩ := hm
    obtain ⟨s1, s2, s3⟩ := column_row hs
    obtain ⟨t1, t2, t3⟩ := column_row ht
    obtain ⟨⟨k, k', e1, e2, e3⟩, e4, e5⟩ := hP.board
    rw [h.at hs, h.side, Res.ok.injEq] at e1
    have e1 := piece_eq_some e1
    rw [h.side] at e3
    have harr : Shogi.arrival k pr = some k' := by
      unfold Shogi.arrival
      cases pr with
      | true => simp only [if_true] at e2 ⊢; exact (promotedKind_iff _ _).2 e2
      | false =>
        simp only [Bool.false_eq_true, if_false] at e2 ⊢; rw [e2]
    have hst : s ≠ t := by
      rintro rfl; rw [e4] at e3; cases e3
    simp only [Move.action, Shogi.step, e1, ne_eq, not_true_eq_false, if_false, harr] at hT
    have board : ∀ f r, 1 ≤ f ∧ f ≤ 9 → 1 ≤ r ∧ r ≤ 9 → q.piece_at (Square.at f r) =
        .ok (((S.put s.column s.row none).put t.column t.row (some (k', S.side))).board f r).piece := by
      intro f r hf hr
      simp only [Shogi.put]
      by_cases a : f = t.column ∧ r = t.row
      · rw [if_pos a, a.1, a.2, ← t3, e3]; rfl
      · rw [if_neg a]
        have a' : Square.at f r ≠ t := by
          intro e; rw [t3] at e; exact a (at_inj hf hr t1 t2 e)
        by_cases b : f = s.column ∧ r = s.row
        · rw [if_pos b, b.1, b.2, ← s3, e4]; rfl
        · rw [if_neg b]
          have b' : Square.at f r ≠ s := by
            intro e; rw [s3] at e; exact b (at_inj hf hr s1 s2 e)
          rw [e5 _ (at_valid hf hr) b' a', h.board f r hf hr]
    cases hy : S.board t.column t.row with
    | none =>
      simp only [hy, Option.some.injEq] at hT
      subst hT
      refine ⟨board, ?_, hside, hply⟩
      intro c l hl
      obtain ⟨n, n', f1, f2, f3⟩ := hP.hands l c hl
      obtain ⟨n0, g1, g2⟩ := h.hand c l hl
      rw [f1] at g1; cases g1
      refine ⟨n', f2, ?_⟩
      rw [f3.2 ?_]
      · exact g2
      · rintro ⟨_, l', _, e⟩
        rw [h.at ht, hy] at e; cases e
    | some y =>
      obtain ⟨l, d⟩ := y
      simp only [hy] at hT
      split at hT
      · cases hT
      · rename_i hd
        rw [not_or] at hd
        have hd' := eq_other hd.1
        subst hd'
        cases hT
        refine ⟨board, ?_, hside, hply⟩
        intro c j hj
        obtain ⟨n, n', f1, f2, f3⟩ := hP.hands j c hj
        obtain ⟨n0, g1, g2⟩ := h.hand c j hj
        rw [f1] at g1; cases g1
        refine ⟨n', f2, ?_⟩
        simp only [Shogi.pass, Shogi.setHand]
        have hcap : p.Captures t j c ↔ c = S.side ∧ j = l.base := by
          simp only [Captures, h.side, h.at ht, hy]
          constructor
          · rintro ⟨a, l', b, e⟩
            have := (Piece.mk'_inj (Option.some.inj (Res.ok.inj e))).1
            exact ⟨a, by rw [← b, ← this]⟩
          · rintro ⟨a, b⟩
            exact ⟨a, l, b.symm, rfl⟩
        by_cases hc : c = S.side ∧ j = l.base
        · rw [if_pos hc, f3.1 (hcap.2 hc)]
          obtain ⟨rfl, rfl⟩ := hc
          have := hb _ hj
          rw [BitVec.toNat_add, g2]
          show (_ + 1) % 256 = _
          omega
        · rw [if_neg hc, f3.2 (fun e => hc (hcap.1 e))]
          exact g2
  | Drop x t =>
    obtain ⟨hx, ht⟩ := hm
    obtain ⟨t1, t2, t3⟩ := column_row ht
    obtain ⟨k, c, rfl⟩ := Piece.exists_mk' hx
    obtain ⟨e1, e2⟩ := hP.board
    simp only [Move.action, Shogi.step, kindOfPiece_mk, colorOfPiece_mk] at hT
    split at hT
    · rename_i hc
      obtain ⟨rfl, hk, hy, hn⟩ := hc
      cases hT
      refine ⟨?_, ?_, hside, hply⟩
      · intro f r hf hr
        simp only [Shogi.pass, Shogi.setHand, Shogi.put]
        by_cases a : f = t.column ∧ r = t.row
        · rw [if_pos a, a.1, a.2, ← t3, e1]; rfl
        · rw [if_neg a]
          have a' : Square.at f r ≠ t := by
            intro e; rw [t3] at e; exact a (at_inj hf hr t1 t2 e)
          rw [e2 _ (at_valid hf hr) a', h.board f r hf hr]
      · intro c j hj
        obtain ⟨n, n', f1, f2, f3⟩ := hP.hands j c hj
        obtain ⟨n0, g1, g2⟩ := h.hand c j hj
        rw [f1] at g1; cases g1
        refine ⟨n', f2, ?_⟩
        simp only [Shogi.pass, Shogi.setHand]
        simp only [HandAfter] at f3
        by_cases hc : c = S.side ∧ j = k
        · obtain ⟨rfl, rfl⟩ := hc
          simp only [and_self, if_true] at f3 ⊢
          rw [f3.2, ← g2]
          have h0 : n.toNat ≠ 0 := fun e => f3.1 (BitVec.eq_of_toNat_eq e)
          rw [BitVec.toNat_sub]
          have := n.isLt
          show (256 - 1 + n.toNat) % 256 = _
          omega
        · rw [if_neg hc]
          rw [if_neg (by intro e; obtain ⟨a, b⟩ := Piece.mk'_inj e; exact hc ⟨b.symm, a.symm⟩)] at f3
          rw [f3]; exact g2
    · cases hT

end PartialPosition

open PartialPosition
variable [P : Profile]

/-- C53, one call: from any position of the API that shows a state of the abstract machine with
no counter about to wrap, `make_move` accepts exactly when the machine steps, and the new position
shows the new state (the old one after a rejection). -/
theorem C53_step (p : PartialPosition) (hp : ApiReach p) (S : Shogi) (h : p.Shows S)
    (hb : ∀ k, k.InHand → S.hand S.side k < 255) (m : Move) (hm : m.Valid) :
    ∃ q v, p.make_move m = .ok (q, v) ∧ v.isSome = (S.step m.action).isSome ∧
      q.Shows ((S.step m.action).getD S) := by
  have hac := acceptable_step h hm
  obtain ⟨c1, c2⟩ := C28_accept_iff p hp m hm
  cases hT : S.step m.action with
  | none =>
    rw [hT] at hac
    obtain ⟨q, e⟩ := c2.1 (fun a => by cases hac.1 a)
    refine ⟨q, none, e, rfl, ?_⟩
    rw [C27_make_move p q hp m hm e]; exact h
  | some T =>
    rw [hT] at hac
    obtain ⟨q, e⟩ := c1.1 (hac.2 rfl)
    exact ⟨q, some (), e, rfl, played_step h hm hb (C29_effect p q hp m hm e) hT⟩

theorem shows_inHand {p : PartialPosition} {S : Shogi} (h : p.Shows S) (c : Color) (k : PieceKind)
    (hk : k.InHand) : p.inHand k c = S.hand c k := by
  obtain ⟨n, e, e'⟩ := h.hand c k hk
  unfold inHand
  rw [e]; exact e'

/-- C53 from any position with fewer than 255 pieces of each kind. -/
theorem C53_general (p : PartialPosition) (hp : ApiReach p)
    (hs : ∀ k, p.onBoard k + p.inHand k .Black + p.inHand k .White < 255) (S : Shogi)
    (h : p.Shows S) (l : List Move) (hl : ∀ m ∈ l, m.Valid) :
    ∃ q, p.playAll l = .ok (q, (S.run (l.map Move.action)).2) ∧
      q.Shows (S.run (l.map Move.action)).1 := by
  induction l generalizing p S with
  | nil => exact ⟨p, rfl, h⟩
  | cons m l ih =>
    have hm := hl m (by simp)
    have hb : ∀ k, k.InHand → S.hand S.side k < 255 := by
      intro k hk
      rw [← shows_inHand h _ k hk]
      have := hs k
      cases S.side <;> omega
    obtain ⟨q, v, e, hv, hq⟩ := C53_step p hp S h hb m hm
    have hqr : ApiReach q := .step hp (.make_move hm e)
    have hqs : ∀ k, q.onBoard k + q.inHand k .Black + q.inHand k .White < 255 := by
      intro k
      cases v with
      | none => rw [C27_make_move p q hp m hm e]; exact hs k
      | some u =>
        rw [C30_general p q [m] hp hs (by simpa using Game.From.accept .start hm e) k]; exact hs k
    obtain ⟨r, e2, hr⟩ := ih q hqr hqs _ hq (fun m' h' => hl m' (by simp [h']))
    refine ⟨r, ?_, ?_⟩
    · simp only [playAll, e, Res.bind_ok, e2, Res.pure_eq, List.map_cons, Shogi.run, hv]
      cases S.step m.action <;> rfl
    · simp only [List.map_cons, Shogi.run]
      cases hS : S.step m.action <;> rw [hS] at hr <;> exact hr

/-- The starting position shows the start of the machine. -/
theorem shows_start {p : PartialPosition} (hp : startpos = .ok p) : p.Shows Shogi.start := by
  obtain ⟨p', e, h1, h2, h3, _, _, h5, _⟩ := C35_board
  rw [hp] at e; cases e
  refine ⟨?_, ?_, h2, ?_⟩
  · intro f r hf hr
    rw [h1 f r hf hr]
    have t : ∀ f : Fin 10, ∀ r : Fin 10, (diagramAt f r) =
        (Cell.piece ((diagramAt f r).map fun x => (kindOfPiece x, colorOfPiece x))) := by
      decide +kernel
    congr 1
    exact t ⟨f, by omega⟩ ⟨r, by omega⟩
  · intro c k hk
    exact ⟨0, h5 c k hk, rfl⟩
  · rw [h3]; rfl

/-- C53: whatever list of moves is tried from the starting position, `make_move` gives exactly the
verdicts of the abstract machine, and the position shows exactly the state of the machine. -/
theorem C53_refinement (l : List Move) (hl : ∀ m ∈ l, m.Valid) :
    ∃ p q, startpos = .ok p ∧ p.playAll l = .ok (q, (Shogi.start.run (l.map Move.action)).2) ∧
      q.Shows (Shogi.start.run (l.map Move.action)).1 := by
  obtain ⟨p, hp, _⟩ := C35_board
  obtain ⟨q, h1, h2⟩ := C53_general p (.startpos hp) (fun k => by
    rw [C30_conservation p ⟨p, [], hp, .start⟩ k]
    exact Nat.lt_of_le_of_lt (pieceSupply_le k) (by omega)) Shogi.start (shows_start hp) l hl
  exact ⟨p, q, hp, h1, h2⟩

/-- C53: the state shown is unique, where it can be seen. -/
theorem C53_unique (p : PartialPosition) (S T : Shogi) (h : p.Shows S) (h' : p.Shows T) :
    (∀ f r, 1 ≤ f ∧ f ≤ 9 → 1 ≤ r ∧ r ≤ 9 → S.board f r = T.board f r) ∧
    (∀ c k, k.InHand → S.hand c k = T.hand c k) ∧ S.side = T.side ∧
    S.ply % 65536 = T.ply % 65536 := by
  refine ⟨?_, ?_, h.side.symm.trans h'.side, by rw [← h.ply, h'.ply]⟩
  · intro f r hf hr
    have e := (h.board f r hf hr).symm.trans (h'.board f r hf hr)
    cases hS : S.board f r with
    | none =>
      cases hT : T.board f r with
      | none => rfl
      | some => rw [hS, hT] at e; cases e
    | some x =>
      obtain ⟨k, c⟩ := x
      rw [hS] at e
      exact (piece_eq_some (Res.ok.inj e).symm).symm
  · intro c k hk
    rw [← shows_inHand h c k hk, ← shows_inHand h' c k hk]

/-- C53: every position of the API shows a state. -/
theorem C53_total (p : PartialPosition) (hp : ApiReach p) : ∃ S, p.Shows S := by
  refine ⟨⟨fun f r => match p.piece_at (Square.at f r) with
      | .ok (some x) => some (kindOfPiece x, colorOfPiece x)
      | _ => none, fun c k => p.inHand k c, p.side_to_move, p.get_ply.toNat⟩, ?_, ?_, rfl, ?_⟩
  · intro f r hf hr
    rcases C25_total p hp (Square.at f r) (at_valid hf hr) with e | ⟨k, c, e⟩
    · simp only [e]; rfl
    · simp only [e, kindOfPiece_mk, colorOfPiece_mk]; rfl
  · intro c k hk
    rw [hand_ok, Hand.count_ok, dif_pos hk]
    refine ⟨_, rfl, ?_⟩
    simp only [inHand]
    rw [hand_ok, Hand.count_ok, dif_pos hk]
  · exact (Nat.mod_eq_of_lt p.get_ply.isLt).symm

/-- Non-vacuity: a capture, a rejected move and a drop on the machine. -/
example : (Shogi.start.run [.move 7 7 7 6 false, .move 3 3 3 4 false, .move 8 8 2 2 true,
      .move 5 5 5 4 false, .move 3 1 2 2 false, .drop .Bishop .Black 5 5]).2 =
    [true, true, true, false, true, true] := by decide +kernel

end ShogiCore
