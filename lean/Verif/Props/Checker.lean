import Verif.Props.Attack
import Verif.Props.Generate

/- C85: a legality checker written with the functions of the crate. -/

namespace ShogiCore
open PartialPosition Bitboard
variable [P : Profile]
set_option linter.unusedSectionVars false

/-! ### Single tests -/

theorem contains_test (b : Bitboard) {t : Square} (ht : t.Valid) :
    ∃ v, b.contains t = .ok v ∧ (v = true ↔ b.Mem t) := by
  rcases C15_contains_total b t ht with e | e
  · exact ⟨true, e, by simp [Bitboard.Mem, e]⟩
  · exact ⟨false, e, by simp [Bitboard.Mem, e]⟩

private theorem rank_of {t : Square} (ht : t.Valid) : ∃ r, t.rank = .ok r ∧ r.toNat = t.row := by
  have := Square.idx0_lt ht
  refine ⟨_, Square.rank_ok ht, ?_⟩
  rw [BitVec.toNat_ofNat]
  unfold Square.row Square.idx0
  omega

private theorem file_of {t : Square} (ht : t.Valid) : ∃ f, t.file = .ok f ∧ f.toNat = t.column := by
  have := Square.idx0_lt ht
  refine ⟨_, Square.file_ok ht, ?_⟩
  rw [BitVec.toNat_ofNat]
  unfold Square.column
  unfold Square.idx0 at *
  omega

private theorem relative_of {t : Square} (ht : t.Valid) (c : Color) :
    ∃ r, t.relative_rank c = .ok r ∧ r.toNat = c.rankOf t.row := by
  obtain ⟨r, e, h⟩ := rank_of ht
  obtain ⟨_, h2, _⟩ := column_row ht
  unfold Square.relative_rank
  rw [e, Res.bind_ok]
  cases c with
  | Black => exact ⟨r, rfl, h⟩
  | White =>
    have hr : r.toNat ≤ (10 : U8).toNat := by rw [h]; show _ ≤ 10; omega
    refine ⟨10 - r, csub_ok hr, ?_⟩
    rw [BitVec.toNat_sub_of_le hr, h]; rfl

theorem stuck_test (k : PieceKind) (c : Color) {t : Square} (ht : t.Valid) :
    ∃ v, (Piece.mk' k c).stuck t = .ok v ∧ (v = true ↔ k.Stuck c t.row) := by
  obtain ⟨r, e, h⟩ := relative_of ht c
  unfold Piece.stuck
  simp only [Piece.color_mk', Piece.piece_kind_mk', Res.bind_ok, e]
  cases k <;> refine ⟨_, rfl, ?_⟩ <;> simp [PieceKind.Stuck, h]

private theorem pattern_zero {x : U16} (h : x.toNat < 512) : (x != 0) = true ↔ ∃ r, (1 ≤ r ∧ r ≤ 9) ∧ x.getLsbD (r - 1) = true := by
  rw [bne_iff_ne]
  constructor
  · intro hn
    apply Classical.byContradiction
    intro hc
    apply hn
    apply BitVec.eq_of_getLsbD_eq
    intro i _
    rw [show (0 : U16).getLsbD i = false by simp]
    by_cases hi : i < 9
    · cases e : x.getLsbD i with
      | false => rfl
      | true => exact absurd ⟨i + 1, ⟨by omega, by omega⟩, by simpa using e⟩ hc
    · rw [BitVec.getLsbD]
      exact Nat.testBit_lt_two_pow (Nat.lt_of_lt_of_le h (show 2 ^ 9 ≤ 2 ^ i from Nat.pow_le_pow_right (by omega) (by omega)))
  · rintro ⟨r, _, e⟩ rfl
    simp at e

section
variable {p : PartialPosition} {S : Shogi}

private theorem pawn_of (hp : ApiReach p) (hS : p.Shows S) (c : Color) {t : Square} (ht : t.Valid) :
    ∃ v, p.pawn_on_file c t = .ok v ∧
      (v = true ↔ ∃ i ∈ List.range 9, S.board t.column (i + 1) = some (.Pawn, c)) := by
  obtain ⟨b, e, h⟩ := piece_is hp hS .Pawn c
  obtain ⟨f, ef, hf⟩ := file_of ht
  obtain ⟨h1, _, _⟩ := column_row ht
  obtain ⟨x, ex, hx, hm⟩ := C23_get_file b f (by omega)
  refine ⟨x != 0, by simp only [pawn_on_file, Piece.new_ok, Res.bind_ok, e, ef, ex]; rfl, ?_⟩
  rw [pattern_zero hx]
  constructor
  · rintro ⟨r, hr, a⟩
    have := (h.2 _ _ ⟨h1, hr⟩).1 (by rw [← hf]; exact (hm r hr).1 a)
    exact ⟨r - 1, List.mem_range.2 (by omega), by rw [show r - 1 + 1 = r by omega]; exact this⟩
  · rintro ⟨i, hi, a⟩
    have hi := List.mem_range.1 hi
    have hr : 1 ≤ i + 1 ∧ i + 1 ≤ 9 := by omega
    exact ⟨i + 1, hr, (hm _ hr).2 (by rw [hf]; exact (h.2 _ _ ⟨h1, hr⟩).2 a)⟩

theorem fits_piece_of (hp : ApiReach p) (hS : p.Shows S) {s t : Square} (hs : s.Valid) (ht : t.Valid)
    (promote : Bool) (k : PieceKind) (c : Color) : ∃ v, p.fits_piece s t promote (Piece.mk' k c) = .ok v ∧
      (v = true ↔ c = S.side ∧ (∀ y ∈ S.board t.column t.row, y.2 ≠ S.side) ∧
        S.Reaches k c s.column s.row t.column t.row ∧
        (promote = true → (promotedKind k).isSome ∧ (S.side.rankOf s.row ≤ 3 ∨ S.side.rankOf t.row ≤ 3)) ∧
        (promote = false → ¬k.Stuck S.side t.row)) := by
  obtain ⟨own, e1, h1⟩ := player_is hp hS c
  obtain ⟨there, e2, _, h2⟩ := C84_reach p hp S hS k c s hs
  obtain ⟨r, e3, h3⟩ := relative_of hs c
  obtain ⟨r', e4, h4⟩ := relative_of ht c
  obtain ⟨st, e5, h5⟩ := stuck_test k c ht
  obtain ⟨v1, e6, h6⟩ := contains_test own ht
  obtain ⟨v2, e7, h7⟩ := contains_test there ht
  obtain ⟨sg, e8, _⟩ := C15_single s hs
  rw [e8, Res.bind_ok] at e2
  refine ⟨_, by
    simp only [fits_piece, Piece.color_mk', Piece.piece_kind_mk', Res.bind_ok, e1, e2, e3, e4, e5, e6, e7, e8]; rfl, ?_⟩
  simp only [Bool.and_eq_true, Bool.not_eq_true', decide_eq_true_eq, hS.side]
  rw [← Bool.not_eq_true v1, h6, h7, h2 t ht, is_at h1 ht, h3, h4]
  have pr : k.promote.isSome = (promotedKind k).isSome := by cases k <;> rfl
  constructor
  · rintro ⟨⟨⟨rfl, a⟩, b⟩, d⟩
    refine ⟨rfl, fun y hy e => a ⟨y.1, by rw [hy, ← e]⟩, b, ?_, ?_⟩
    · rintro rfl; simpa [pr] using d
    · rintro rfl; rw [← h5]; simpa using d
  · rintro ⟨rfl, a, b, d, d'⟩
    refine ⟨⟨⟨rfl, fun ⟨k', e⟩ => a _ e rfl⟩, b⟩, ?_⟩
    cases promote with
    | true => simpa [pr] using d rfl
    | false => have := d' rfl; rw [← h5] at this; simpa using this

theorem held_test (hS : p.Shows S) (k : PieceKind) (c : Color) :
    ∃ n, p.hand (Piece.mk' k c) = .ok n ∧ (n.getD 0 ≠ 0 ↔ k.InHand ∧ S.hand c k ≠ 0) := by
  by_cases hk : k.InHand
  · obtain ⟨n, e, h⟩ := hS.hand c k hk
    refine ⟨_, e, ?_⟩
    rw [← h]
    simp only [Option.getD_some, ne_eq, hk, true_and]
    exact not_congr ⟨fun e => by rw [e]; rfl, fun e => BitVec.eq_of_toNat_eq e⟩
  · refine ⟨none, by rw [hand_ok, Hand.count_ok, dif_neg hk], ?_⟩
    simp [hk]

private theorem fits_drop_of (hp : ApiReach p) (hS : p.Shows S) (k : PieceKind) (c : Color) {t : Square} (ht : t.Valid) :
    ∃ v, p.fits_drop (Piece.mk' k c) t = .ok v ∧ (v = true ↔ S.Shaped (.drop k c t.column t.row)) := by
  obtain ⟨st, e1, h1⟩ := stuck_test k c ht
  obtain ⟨dp, e2, h2⟩ := pawn_of hp hS c ht
  obtain ⟨v, e3, h3⟩ := contains_test p.vacant_bitboard ht
  obtain ⟨i1, i2, _⟩ := column_row ht
  obtain ⟨n, e4, h4⟩ := held_test hS k c
  refine ⟨_, by simp only [fits_drop, Piece.color_mk', Piece.piece_kind_mk', Res.bind_ok, e1, e2, e3, e4]; rfl, ?_⟩
  simp only [Bool.and_eq_true, Bool.not_eq_true', decide_eq_true_eq, hS.side, h4, Shogi.Shaped]
  rw [← Bool.not_eq_true st, h1, h3, is_at (vacant_is hp hS) ht, ← Bool.not_eq_true, Bool.and_eq_true, h2, decide_eq_true_eq]
  constructor
  · rintro ⟨⟨⟨⟨rfl, a, b⟩, d⟩, e⟩, g⟩
    exact ⟨⟨i1, i2⟩, rfl, a, b, d, e, fun hk i hi hh => g ⟨hk, i, hi, hh⟩⟩
  · rintro ⟨_, rfl, a, b, d, e, g⟩
    exact ⟨⟨⟨⟨rfl, a, b⟩, d⟩, e⟩, fun ⟨hk, i, hi, hh⟩ => g hk i hi hh⟩

end

/-- C85: the client recognises the moves that pieces can make. -/
theorem C85_fits (p : PartialPosition) (hp : ApiReach p) (S : Shogi) (hS : p.Shows S) (m : Move) (hm : m.Valid) :
    ∃ v, p.fits m = .ok v ∧ (v = true ↔ S.Shaped m.action) := by
  cases m with
  | Normal s t pr =>
    obtain ⟨hs, ht⟩ := hm
    obtain ⟨s1, s2, _⟩ := column_row hs
    obtain ⟨t1, t2, _⟩ := column_row ht
    simp only [fits, hS.at hs, Res.bind_ok, Move.action, Shogi.Shaped]
    cases h : S.board s.column s.row with
    | none => exact ⟨false, rfl, by simp⟩
    | some x =>
      obtain ⟨k, c⟩ := x
      obtain ⟨v, e, hv⟩ := fits_piece_of hp hS hs ht pr k c
      refine ⟨v, e, hv.trans ?_⟩
      constructor
      · intro a; exact ⟨⟨s1, s2⟩, ⟨t1, t2⟩, _, rfl, a⟩
      · rintro ⟨_, _, x, hx, a⟩
        cases hx
        exact a
  | Drop x t =>
    obtain ⟨hx, ht⟩ := hm
    obtain ⟨k, c, rfl⟩ := Piece.exists_mk' hx
    obtain ⟨v, e, hv⟩ := fits_drop_of hp hS k c ht
    exact ⟨v, e, by rw [hv]; simp only [Move.action, kindOfPiece_mk, colorOfPiece_mk]⟩

/-! ### After a move -/

omit P in
private theorem cell_piece_inj {x y : Cell} (h : x.piece = y.piece) : x = y := by
  cases y with
  | none =>
    cases x with
    | none => rfl
    | some x => cases h
  | some y =>
    obtain ⟨k, c⟩ := y
    exact piece_eq_some h

/-- Whatever the counters of the hands: board, turn and the hand of the player to move after a move. -/
theorem after_shows {p q : PartialPosition} {S : Shogi} (hp : ApiReach p) (hS : p.Shows S) {m : Move} (hm : m.Valid)
    (e : p.make_move m = .ok (q, some ())) : ∃ T, q.Shows T ∧
      (∀ f r, Inside f r → T.board f r = (S.after m.action).board f r) ∧ T.side = S.side.other ∧
      ∀ k, k.InHand → T.hand S.side.other k = S.hand S.side.other k := by
  have hP := C29_effect p q hp m hm e
  obtain ⟨T, hT⟩ := C53_total q (.step hp (.make_move hm e))
  refine ⟨T, hT, fun f r i => ?_, by rw [← hT.side, hP.side, hS.side], fun k hk => ?_⟩
  · apply cell_piece_inj
    apply Res.ok.inj
    rw [← hT.board f r i.1 i.2]
    have hb := hP.board
    cases m with
    | Normal s t pr =>
      obtain ⟨hs, ht⟩ := hm
      obtain ⟨s1, s2, s3⟩ := column_row hs
      obtain ⟨t1, t2, t3⟩ := column_row ht
      obtain ⟨⟨k, k', e1, e2, e3⟩, e4, e5⟩ := hb
      rw [hS.at hs, hS.side, Res.ok.injEq] at e1
      have e1 := piece_eq_some e1
      rw [hS.side] at e3
      have harr : Shogi.arrival k pr = some k' := by
        unfold Shogi.arrival
        cases pr with
        | true => simp only [if_true] at e2 ⊢; exact (promotedKind_iff _ _).2 e2
        | false => simp only [Bool.false_eq_true, if_false] at e2 ⊢; rw [e2]
      simp only [Move.action, Shogi.after, Shogi.pass, Shogi.put, e1, Option.map_some, harr, Option.getD_some]
      by_cases a : f = t.column ∧ r = t.row
      · rw [if_pos a, a.1, a.2, ← t3, e3]; rfl
      · rw [if_neg a]
        have a' : Square.at f r ≠ t := by
          intro e; rw [t3] at e; exact a (at_inj i.1 i.2 t1 t2 e)
        by_cases b : f = s.column ∧ r = s.row
        · rw [if_pos b, b.1, b.2, ← s3, e4]; rfl
        · rw [if_neg b]
          have b' : Square.at f r ≠ s := by
            intro e; rw [s3] at e; exact b (at_inj i.1 i.2 s1 s2 e)
          rw [e5 _ (at_valid i.1 i.2) b' a', hS.board f r i.1 i.2]
    | Drop x t =>
      obtain ⟨hx, ht⟩ := hm
      obtain ⟨t1, t2, t3⟩ := column_row ht
      obtain ⟨k, c, rfl⟩ := Piece.exists_mk' hx
      obtain ⟨e1, e2⟩ := hb
      simp only [Move.action, Shogi.after, Shogi.pass, Shogi.put, kindOfPiece_mk, colorOfPiece_mk]
      by_cases a : f = t.column ∧ r = t.row
      · rw [if_pos a, a.1, a.2, ← t3, e1]; rfl
      · rw [if_neg a]
        have a' : Square.at f r ≠ t := by
          intro e; rw [t3] at e; exact a (at_inj i.1 i.2 t1 t2 e)
        rw [e2 _ (at_valid i.1 i.2) a', hS.board f r i.1 i.2]
  · obtain ⟨n, n', f1, f2, f3⟩ := hP.hands k S.side.other hk
    obtain ⟨n0, g1, g2⟩ := hS.hand S.side.other k hk
    obtain ⟨n1, g3, g4⟩ := hT.hand S.side.other k hk
    rw [f1] at g1; cases g1
    rw [f2] at g3; cases g3
    rw [← g2, ← g4]
    congr 1
    have ne := other_ne S.side
    cases m with
    | Normal s t pr =>
      refine f3.2 ?_
      rintro ⟨h, _⟩
      rw [hS.side] at h; exact ne h
    | Drop x t =>
      simp only [HandAfter] at f3
      rw [if_neg] at f3
      · exact f3
      · rintro rfl
        have := (acceptable_step hS hm).1 ((C28_accept_iff p hp _ hm).1.2 ⟨q, e⟩)
        simp only [Move.action, Shogi.step, kindOfPiece_mk, colorOfPiece_mk, ne, false_and, if_false] at this
        cases this

omit P in
theorem inCheck_inside {S T : Shogi} (h : ∀ f r, Inside f r → T.board f r = S.board f r) (c : Color) :
    T.InCheck c ↔ S.InCheck c := by
  let U : Shogi := { S with hand := T.hand, side := T.side }
  have a : T.Alike U := ⟨h, fun _ _ _ => rfl, rfl⟩
  exact ⟨fun hc => (Shogi.inCheck_board (S := U) (T := S) rfl c).1 (Shogi.inCheck_alike a hc),
    fun hc => Shogi.inCheck_alike a.symm ((Shogi.inCheck_board (S := U) (T := S) rfl c).2 hc)⟩

omit P in
/-- Whether the player to move is mated depends on no hand but theirs. -/
theorem mated_inside {S T : Shogi} (h : ∀ f r, Inside f r → T.board f r = S.board f r) (hs : T.side = S.side)
    (hh : ∀ k, k.InHand → T.hand S.side k = S.hand S.side k) : T.Mated ↔ S.Mated := by
  let U : Shogi := { S with hand := T.hand }
  have a : T.Alike U := ⟨h, fun _ _ _ => rfl, hs⟩
  have shaped : ∀ x, U.Shaped x ↔ S.Shaped x := by
    intro x
    cases x with
    | move f r f' r' pr => exact Iff.rfl
    | drop k c f r =>
      simp only [Shogi.Shaped]
      constructor
      · rintro ⟨i, rfl, hk, hn, rest⟩
        exact ⟨i, rfl, hk, by rw [← hh k hk]; exact hn, rest⟩
      · rintro ⟨i, rfl, hk, hn, rest⟩
        exact ⟨i, rfl, hk, by show T.hand _ _ ≠ 0; rw [hh k hk]; exact hn, rest⟩
  have safe : ∀ x, U.Safe x ↔ S.Safe x := by
    intro x
    have : (U.after x).InCheck U.side ↔ (S.after x).InCheck S.side :=
      Shogi.inCheck_board (by cases x <;> rfl) _
    simp only [Shogi.Safe, shaped, this]
  have : U.Mated ↔ S.Mated := by
    have c : U.InCheck U.side ↔ S.InCheck S.side := Shogi.inCheck_board rfl _
    simp only [Shogi.Mated, safe, c]
  exact ⟨fun hm => this.1 (Shogi.mated_alike a hm), fun hm => Shogi.mated_alike a.symm (this.2 hm)⟩

/-- C85: … those of them that can be carried out and do not leave the own king attacked; … -/
theorem C85_safe (p : PartialPosition) (hp : ApiReach p) (S : Shogi) (hS : p.Shows S) (m : Move) (hm : m.Valid) :
    ∃ v, p.safe m = .ok v ∧
      (v = true ↔ S.Safe m.action ∧ ∃ q, p.make_move m = .ok (q, some ())) := by
  obtain ⟨v, e, hv⟩ := C85_fits p hp S hS m hm
  cases v with
  | false =>
    refine ⟨false, by simp [safe, e], ?_⟩
    simp only [Bool.false_eq_true, false_iff] at hv ⊢
    rintro ⟨a, _⟩; exact hv a.1
  | true =>
    have hv := hv.1 rfl
    rcases make_move_ok (reach_ok hp) hm with ⟨_, q, e', _⟩ | ⟨_, e'⟩
    · obtain ⟨T, hT, hb, -, -⟩ := after_shows hp hS hm e'
      obtain ⟨w, ew, hw⟩ := C84_in_check q (.step hp (.make_move hm e')) T hT p.side_to_move
      refine ⟨!w, by simp [safe, e, e', ew], ?_⟩
      rw [Bool.not_eq_true', ← Bool.not_eq_true, hw, inCheck_inside hb, hS.side]
      exact ⟨fun h => ⟨⟨hv, h⟩, q, e'⟩, fun h => h.1.2⟩
    · refine ⟨false, by simp [safe, e, e'], ?_⟩
      rw [e']
      simp

/-- An action on the board is what some move asks for. -/
theorem action_of {S : Shogi} {a : Action} (h : S.Shaped a) : ∃ m : Move, m.Valid ∧ m.action = a := by
  have at_inv : ∀ {f r}, Inside f r → (Square.at f r).Valid ∧ (Square.at f r).column = f ∧ (Square.at f r).row = r := by
    intro f r i
    have hv := at_valid i.1 i.2
    obtain ⟨a, b, c⟩ := column_row hv
    obtain ⟨h1, h2⟩ := at_inj i.1 i.2 a b c
    exact ⟨hv, h1.symm, h2.symm⟩
  cases a with
  | move f r f' r' pr =>
    obtain ⟨i, i', _⟩ := h
    obtain ⟨a, b, c⟩ := at_inv i
    obtain ⟨a', b', c'⟩ := at_inv i'
    exact ⟨.Normal (Square.at f r) (Square.at f' r') pr, ⟨a, a'⟩, by simp only [Move.action, b, c, b', c']⟩
  | drop k c f r =>
    obtain ⟨a, b, d⟩ := at_inv h.1
    exact ⟨.Drop (Piece.mk' k c) (Square.at f r), ⟨Piece.mk'_valid k c, a⟩, by
      simp only [Move.action, b, d, kindOfPiece_mk, colorOfPiece_mk]⟩

private theorem safe_documented : (LegalityChecker.ofPredicate safe).Documented ∧
    (LegalityChecker.ofPredicate safe).is_legal_partial_lite = safe := by
  refine C83_brute safe (fun p m hp hm => ?_) fun p m hp hm h => ?_
  · obtain ⟨S, hS⟩ := C53_total p hp
    obtain ⟨v, e, _⟩ := C85_safe p hp S hS m hm
    exact ⟨v, e⟩
  · obtain ⟨S, hS⟩ := C53_total p hp
    obtain ⟨v, e, hv⟩ := C85_safe p hp S hS m hm
    rw [e] at h; cases h
    exact (hv.1 rfl).2

/-- C85: … checkmate; … -/
theorem C85_mated (p : PartialPosition) (hp : ApiReach p) (S : Shogi) (hS : p.Shows S)
    (hc : ¬S.InCheck S.side.other) : ∃ v, p.mated = .ok v ∧ (v = true ↔ S.Mated) := by
  obtain ⟨hD, hl⟩ := safe_documented
  obtain ⟨l, e, _, hm⟩ := hD.all p hp
  obtain ⟨w, ew, hw⟩ := C84_in_check p hp S hS p.side_to_move
  refine ⟨w && l.isEmpty, by simp only [mated, e, ew, Res.bind_ok]; rfl, ?_⟩
  rw [Bool.and_eq_true, hw, hS.side, Shogi.mated_iff]
  refine and_congr_right fun _ => ?_
  rw [List.isEmpty_iff, List.eq_nil_iff_forall_not_mem]
  constructor
  · intro h a ha
    obtain ⟨m, hv, rfl⟩ := action_of ha.1
    obtain ⟨v, ev, hs⟩ := C85_safe p hp S hS m hv
    refine h m ((hm m).2 ⟨hv, ?_⟩)
    rw [hl, ev, hs.2 ⟨ha, ?_⟩]
    exact (C28_accept_iff _ hp m hv).1.1 ((acceptable_step hS hv).2
      ((Shogi.shaped_step ha.1).2 (Shogi.shaped_no_capture hc ha.1)))
  · intro h m hmem
    obtain ⟨hv, hs'⟩ := (hm m).1 hmem
    obtain ⟨v, ev, hs⟩ := C85_safe p hp S hS m hv
    rw [hl, ev] at hs'; cases hs'
    exact h _ (hs.1 rfl).1

/-- C85: … and the legal moves, in every position in which the player not to move is not in check. -/
theorem C85_legal (p : PartialPosition) (hp : ApiReach p) (S : Shogi) (hS : p.Shows S) (m : Move) (hm : m.Valid) :
    ∃ v, p.legal m = .ok v ∧ (v = true ↔ S.Legal m.action ∧ ¬S.InCheck S.side.other) := by
  obtain ⟨w, ew, hw⟩ := C84_in_check p hp S hS p.side_to_move.other
  rw [hS.side] at hw
  cases w with
  | true =>
    refine ⟨false, by simp [legal, ew], ?_⟩
    have := hw.1 rfl
    simp [this]
  | false =>
    have hc : ¬S.InCheck S.side.other := fun h => Bool.false_ne_true (hw.2 h)
    obtain ⟨v, ev, hv⟩ := C85_safe p hp S hS m hm
    cases v with
    | false =>
      refine ⟨false, by simp [legal, ew, ev], ?_⟩
      simp only [Bool.false_eq_true, false_iff]
      rintro ⟨a, _⟩
      refine Bool.false_ne_true (hv.2 ⟨a.1, ?_⟩)
      exact (C28_accept_iff _ hp m hm).1.1 ((acceptable_step hS hm).2
        ((Shogi.shaped_step a.1.1).2 (Shogi.shaped_no_capture hc a.1.1)))
    | true =>
      obtain ⟨hs, q, eq⟩ := hv.1 rfl
      suffices h : ∃ u, p.pawn_mate m = .ok u ∧
          (u = false ↔ ∀ c f r, m.action = .drop .Pawn c f r → ¬(S.after m.action).Mated) by
        obtain ⟨u, eu, hu⟩ := h
        refine ⟨!u, by simp [legal, ew, ev, eu], ?_⟩
        rw [Bool.not_eq_true', hu]
        exact ⟨fun h => ⟨⟨hs, h⟩, hc⟩, fun h => h.1.2⟩
      cases m with
      | Normal s t pr => exact ⟨false, rfl, by simp [Move.action]⟩
      | Drop x t =>
        obtain ⟨k, c, rfl⟩ := Piece.exists_mk' hm.1
        simp only [pawn_mate, Piece.piece_kind_mk', Res.bind_ok]
        by_cases hk : k = .Pawn
        · subst hk
          obtain ⟨T, hT, hb, hside, hh⟩ := after_shows hp hS hm eq
          have hT' : ¬T.InCheck T.side.other := by
            rw [inCheck_inside hb, hside]
            have : S.side.other.other = S.side := by cases S.side <;> rfl
            rw [this]; exact hs.2
          obtain ⟨u, eu, hu⟩ := C85_mated q (.step hp (.make_move hm eq)) T hT hT'
          refine ⟨u, by simp [eq, eu], ?_⟩
          have : T.Mated ↔ (S.after (Move.Drop (Piece.mk' .Pawn c) t).action).Mated := by
            refine mated_inside hb ?_ fun k hk => ?_
            · rw [hside]; rfl
            · exact hh k hk
          rw [← Bool.not_eq_true, hu, this]
          constructor
          · intro h _ _ _ _; exact h
          · intro h
            exact h c t.column t.row (by simp only [Move.action, kindOfPiece_mk, colorOfPiece_mk])
        · refine ⟨false, by simp [hk], ?_⟩
          simp only [true_iff]
          intro c' f r e
          simp only [Move.action, kindOfPiece_mk, colorOfPiece_mk, Action.drop.injEq] at e
          exact absurd e.1 hk

/-- C85: so with the crate alone one can write a `LegalityChecker` that keeps the promises of the trait and
follows the rules of shogi; … -/
theorem C85_checker : (LegalityChecker.ofPredicate legal).Documented ∧ (LegalityChecker.ofPredicate legal).FollowsRules := by
  have key := C83_brute legal (fun p m hp hm => by
    obtain ⟨S, hS⟩ := C53_total p hp
    obtain ⟨v, e, _⟩ := C85_legal p hp S hS m hm
    exact ⟨v, e⟩) (fun p m hp hm h => by
    obtain ⟨S, hS⟩ := C53_total p hp
    obtain ⟨v, e, hv⟩ := C85_legal p hp S hS m hm
    rw [e] at h; cases h
    obtain ⟨ha, hc⟩ := hv.1 rfl
    exact (C28_accept_iff _ hp m hm).1.1 ((acceptable_step hS hm).2
      ((Shogi.shaped_step ha.1.1).2 (Shogi.shaped_no_capture hc ha.1.1))))
  refine ⟨key.1, fun p S m hp hm hS => ?_⟩
  rw [key.2]
  obtain ⟨v, e, hv⟩ := C85_legal p hp S hS m hm
  rw [e, ← hv, Res.ok.injEq]

/-- C85: … and counting with it from the starting position counts the games by the rules. -/
theorem C85_perft (n : Nat) : ∃ p, startpos = .ok p ∧ ∃ ls : List (List Move),
    (LegalityChecker.ofPredicate legal).perft n p = .ok ls.length ∧ ls.Nodup ∧
      ∀ l, l ∈ ls ↔ l.length = n ∧ (∀ m ∈ l, m.Valid) ∧ ∃ S, Shogi.start.ByRules (l.map Move.action) S :=
  C83_rules _ C85_checker.1 C85_checker.2 n

/-- White's king on 1a and lance on 2a, Black's gold on 1c; Black holds a pawn and a gold. -/
private def sample : Res PartialPosition := do
  let p ← PartialPosition.empty.piece_set (Square.at 1 1) (some (Piece.mk' .King .White))
  let p ← p.piece_set (Square.at 2 1) (some (Piece.mk' .Lance .White))
  let p ← p.piece_set (Square.at 1 3) (some (Piece.mk' .Gold .Black))
  p.hand_of_a_player_mut_assign .Black ⟨#v[1, 0, 0, 0, 1, 0, 0, 0]⟩

set_option maxHeartbeats 2000000 in
/-- Non-vacuity (in a 64-bit build with debug assertions): mate with the gold on 1b is legal, mate with the pawn
is not, although it leaves no king attacked; a pawn elsewhere is legal, a gold that moves like a bishop is not. -/
example : let _ : Profile := ⟨⟨true, .w64⟩⟩
    ∃ p, ApiReach p ∧ (∃ S, p.Shows S) ∧ p.safe (.Drop (Piece.mk' .Pawn .Black) (Square.at 1 2)) = .ok true ∧
      p.legal (.Drop (Piece.mk' .Pawn .Black) (Square.at 1 2)) = .ok false ∧
      p.legal (.Drop (Piece.mk' .Gold .Black) (Square.at 1 2)) = .ok true ∧
      p.legal (.Drop (Piece.mk' .Pawn .Black) (Square.at 1 4)) = .ok true ∧
      p.legal (.Normal (Square.at 1 3) (Square.at 3 1) false) = .ok false ∧
      ∃ q, p.make_move (.Drop (Piece.mk' .Gold .Black) (Square.at 1 2)) = .ok (q, some ()) ∧ q.mated = .ok true := by
  intro _
  have t : (match sample with
      | .ok p => decide (p.safe (.Drop (Piece.mk' .Pawn .Black) (Square.at 1 2)) = .ok true) &&
          decide (p.legal (.Drop (Piece.mk' .Pawn .Black) (Square.at 1 2)) = .ok false) &&
          decide (p.legal (.Drop (Piece.mk' .Gold .Black) (Square.at 1 2)) = .ok true) &&
          decide (p.legal (.Drop (Piece.mk' .Pawn .Black) (Square.at 1 4)) = .ok true) &&
          decide (p.legal (.Normal (Square.at 1 3) (Square.at 3 1) false) = .ok false) &&
          (match p.make_move (.Drop (Piece.mk' .Gold .Black) (Square.at 1 2)) with
            | .ok (q, some ()) => decide (q.mated = .ok true)
            | _ => false)
      | _ => false) = true := by decide +kernel
  have put : ∀ p, ApiReach p → ∀ (s : Square) x, s.Valid → Piece.Valid x → ∃ q, p.piece_set s (some x) = .ok q ∧ ApiReach q := by
    intro p hp s x hs hx
    obtain ⟨q, e, _⟩ := C26_piece_set p hp s hs (some x) (by rintro _ ⟨⟩; exact hx)
    exact ⟨q, e, .step hp (.piece_set hs (by rintro _ ⟨⟩; exact hx) e)⟩
  obtain ⟨p1, e1, h1⟩ := put _ .empty (Square.at 1 1) (Piece.mk' .King .White) (by decide) (by decide)
  obtain ⟨p2, e2, h2⟩ := put _ h1 (Square.at 2 1) (Piece.mk' .Lance .White) (by decide) (by decide)
  obtain ⟨p3, e3, h3⟩ := put _ h2 (Square.at 1 3) (Piece.mk' .Gold .Black) (by decide) (by decide)
  cases e4 : p3.hand_of_a_player_mut_assign .Black ⟨#v[1, 0, 0, 0, 1, 0, 0, 0]⟩ with
  | panic => simp only [sample, e1, e2, e3, e4, Res.bind_ok] at t; cases t
  | ub => simp only [sample, e1, e2, e3, e4, Res.bind_ok] at t; cases t
  | ok p =>
    have h4 : ApiReach p := .step h3 (.hand (by decide) e4)
    simp only [sample, e1, e2, e3, e4, Res.bind_ok, Bool.and_eq_true, decide_eq_true_eq] at t
    obtain ⟨⟨⟨⟨⟨t1, t2⟩, t3⟩, t4⟩, t5⟩, t6⟩ := t
    refine ⟨p, h4, C53_total p h4, t1, t2, t3, t4, t5, ?_⟩
    split at t6
    · next q e => exact ⟨q, e, of_decide_eq_true t6⟩
    · cases t6

end ShogiCore
