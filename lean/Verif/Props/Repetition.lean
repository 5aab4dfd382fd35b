import Verif.Props.Game
import Verif.Props.Order
import Verif.Spec.Record

/- C61: `==` on positions is not a test for repetition. -/

set_option linter.unusedSectionVars false

namespace ShogiCore
open PartialPosition

variable [P : Profile]

/-! ### The move number influences nothing but itself -/

/-- The position with another move number. -/
def PartialPosition.withPly (p : PartialPosition) (n : U16) : PartialPosition := { p with ply := n }

/-- The result of a call with another move number. -/
def Res.withPly (r : Res PartialPosition) (n : U16) : Res PartialPosition :=
  r >>= fun q => .ok (q.withPly n)

theorem piece_set_player_ply (p : PartialPosition) (n : U16) (b : Bitboard) (o : Option Piece) :
    (p.withPly n).piece_set_player b o = (p.piece_set_player b o).withPly n := by
  cases o with
  | none => rfl
  | some x =>
    simp only [piece_set_player, Res.withPly]
    cases x.to_parts with
    | ok kc => obtain ⟨k, c⟩ := kc; cases c <;> rfl
    | panic => rfl
    | ub => rfl

theorem piece_set_remove_ply (p : PartialPosition) (n : U16) (b : Bitboard) (o : Option Piece) :
    (p.withPly n).piece_set_remove b o = (p.piece_set_remove b o).withPly n := by
  cases o with
  | none => rfl
  | some x =>
    simp only [piece_set_remove, Res.withPly, bind_assoc]
    rfl

theorem piece_set_insert_ply (p : PartialPosition) (n : U16) (s : Square) (b : Bitboard)
    (o : Option Piece) :
    (p.withPly n).piece_set_insert s b o = (p.piece_set_insert s b o).withPly n := by
  cases o with
  | none => rfl
  | some x =>
    simp only [piece_set_insert, Res.withPly, bind_assoc, Res.pure_eq, Res.bind_ok]
    refine bind_congr fun k => bind_congr fun i => bind_congr fun bb => bind_congr fun pb =>
      bind_congr fun bk => bind_congr fun wk => ?_
    split <;> split <;> rfl

theorem piece_set_tail_ply (r : PartialPosition) (n : U16) (s : Square) (sg : Bitboard)
    (o old : Option Piece) :
    ((r.withPly n).piece_set_player sg o >>= fun q => q.piece_set_remove sg old >>= fun q =>
      q.piece_set_insert s sg o) =
    (r.piece_set_player sg o >>= fun q => q.piece_set_remove sg old >>= fun q =>
      q.piece_set_insert s sg o >>= fun q => .ok (q.withPly n)) := by
  rw [piece_set_player_ply]
  simp only [Res.withPly, bind_assoc, Res.bind_ok]
  refine bind_congr fun q => ?_
  rw [piece_set_remove_ply]
  simp only [Res.withPly, bind_assoc, Res.bind_ok]
  exact bind_congr fun q => piece_set_insert_ply q n s sg o

theorem piece_set_ply (p : PartialPosition) (n : U16) (s : Square) (o : Option Piece) :
    (p.withPly n).piece_set s o = (p.piece_set s o).withPly n := by
  simp only [piece_set, Res.withPly, bind_assoc]
  refine bind_congr fun i => bind_congr fun j => bind_congr fun old => bind_congr fun bd =>
    bind_congr fun sg => Eq.symm ?_
  exact (piece_set_tail_ply _ n s sg o old).symm

/-- The result of a move call, with the move number it has if it had been `n` before. -/
def afterPly (n : U16) (r : Res (PartialPosition × Option Unit)) :
    Res (PartialPosition × Option Unit) :=
  r >>= fun qv => .ok (qv.1.withPly (if qv.2.isSome then n + 1 else n), qv.2)

omit P in
theorem withPly_withPly (p : PartialPosition) (n n' : U16) : (p.withPly n).withPly n' = p.withPly n' :=
  rfl

omit P in
theorem withPly_self (p : PartialPosition) : p.withPly p.ply = p := rfl

theorem afterPly_some (n : U16) (q : PartialPosition) :
    afterPly n (.ok (q, some ())) = .ok (q.withPly (n + 1), some ()) := rfl

theorem make_move_finish_ply (p : PartialPosition) (n : U16) (m : Move) :
    (p.withPly n).make_move_finish m = afterPly n (p.make_move_finish m) := by
  simp only [make_move_finish, afterPly, bind_assoc, Res.pure_eq, Res.bind_ok]
  rfl

theorem make_move_capture_ply (p : PartialPosition) (n : U16) (x : Piece) (t : Square) :
    (p.withPly n).make_move_capture x t =
      p.make_move_capture x t >>= fun qv => .ok (qv.1.withPly n, qv.2) := by
  simp only [make_move_capture, bind_assoc]
  refine bind_congr fun o => ?_
  cases o with
  | none => rfl
  | some y =>
    simp only [bind_assoc]
    refine bind_congr fun c => bind_congr fun d => ?_
    split
    · rfl
    · simp only [bind_assoc]
      refine bind_congr fun c => bind_congr fun h => bind_congr fun k => bind_congr fun h' => ?_
      cases h' with
      | none => rfl
      | some h' =>
        simp only [hand_of_a_player_mut_assign, bind_assoc, Res.pure_eq, Res.bind_ok]
        rfl

/-- C61: the move number has no influence on any move call, except on the next move number. -/
theorem C61_ply_inert (p : PartialPosition) (n : U16) (m : Move) :
    (p.withPly n).make_move m = afterPly n (p.make_move m) := by
  cases m with
  | Normal s t pr =>
    simp only [make_move, afterPly, bind_assoc]
    refine bind_congr fun o => ?_
    cases o with
    | none => rfl
    | some x =>
      simp only [bind_assoc]
      refine bind_congr fun c => ?_
      by_cases hc : c ≠ p.side
      · rw [if_pos hc, if_pos (show c ≠ (p.withPly n).side from hc)]; rfl
      rw [if_neg hc, if_neg (show ¬ c ≠ (p.withPly n).side from hc)]
      simp only [bind_assoc]
      refine bind_congr fun y => ?_
      cases y with
      | none => rfl
      | some y =>
        simp only [make_move_capture_ply, bind_assoc, Res.bind_ok]
        refine bind_congr fun qv => ?_
        obtain ⟨q, v⟩ := qv
        cases v with
        | none => rfl
        | some u =>
          simp only [piece_set_ply, Res.withPly, bind_assoc, Res.bind_ok]
          exact bind_congr fun a => bind_congr fun b => make_move_finish_ply b n _
  | Drop x t =>
    simp only [make_move, afterPly, bind_assoc]
    refine bind_congr fun c => ?_
    by_cases hc : c ≠ p.side
    · rw [if_pos hc, if_pos (show c ≠ (p.withPly n).side from hc)]; rfl
    rw [if_neg hc, if_neg (show ¬ c ≠ (p.withPly n).side from hc)]
    simp only [bind_assoc]
    refine bind_congr fun u => ?_
    split
    · rfl
    simp only [bind_assoc]
    refine bind_congr fun o => ?_
    split
    · rfl
    simp only [bind_assoc]
    refine bind_congr fun c => bind_congr fun h => bind_congr fun k => bind_congr fun h' => ?_
    cases h' with
    | none => rfl
    | some h' =>
      simp only [hand_of_a_player_mut_assign, bind_assoc, Res.pure_eq, Res.bind_ok]
      refine bind_congr fun c => bind_congr fun i => bind_congr fun hs => ?_
      refine (congrArg (fun r => r >>= fun q => q.make_move_finish (.Drop x t))
        (piece_set_ply { p with hands := hs } n t (some x))).trans ?_
      simp only [Res.withPly, bind_assoc, Res.bind_ok]
      exact bind_congr fun a => make_move_finish_ply a n _

/-! ### C61 -/

/-- C61: after between 1 and 65535 further accepted moves (and any number of rejected ones) a
position is never `==` to what it was, even if board, hands and side to move are. -/
theorem C61_never_equal (p q : PartialPosition) (hp : ApiReach p) (l : List Move)
    (h : Game.From p l q) (h1 : l ≠ []) (h2 : l.length < 65536) : q.eq p = false := by
  cases e : q.eq p with
  | false => rfl
  | true =>
    have := (PartialPosition.eq_iff q p).1 e
    subst this
    have h3 := (C32_bookkeeping _ _ l hp h).2
    have h4 := List.length_pos_iff.2 h1
    have h5 := q.get_ply.isLt
    omega

/-- C61: and within a game no two different moments with fewer than 65536 moves between them
are. -/
theorem C61_within_game (p q r : PartialPosition) (hp : ApiReach p) (l l' : List Move)
    (h : Game.From p l q) (h' : Game.From q l' r) (h1 : l' ≠ []) (h2 : l'.length < 65536) :
    r.eq q = false ∧ q.eq r = false := by
  have a := C61_never_equal q r (from_reach hp h) l' h' h1 h2
  refine ⟨a, ?_⟩
  cases e : q.eq r with
  | false => rfl
  | true =>
    rw [(PartialPosition.eq_iff q r).1 e, (PartialPosition.eq_iff r r).2 rfl] at a
    cases a

/-- The rooks step aside and back. -/
def shuffle : List Move :=
  [.Normal (Square.at 2 8) (Square.at 3 8) false, .Normal (Square.at 8 2) (Square.at 7 2) false,
   .Normal (Square.at 3 8) (Square.at 2 8) false, .Normal (Square.at 7 2) (Square.at 8 2) false]

theorem From.append {p q r : PartialPosition} {l l' : List Move} (h : Game.From p l q)
    (h' : Game.From q l' r) : Game.From p (l ++ l') r := by
  induction h' with
  | start => rwa [List.append_nil]
  | accept _ hm e ih => rw [← List.append_assoc]; exact .accept ih hm e
  | reject _ hm e ih => exact .reject ih hm e

/-- The position after a move (in the proofs below the move is always accepted). -/
private def nxt (p : PartialPosition) (m : Move) : PartialPosition :=
  match @make_move ⟨⟨true, .w64⟩⟩ p m with
  | .ok (q, _) => q
  | _ => p

private def s1 := nxt sp0 (.Normal (Square.at 2 8) (Square.at 3 8) false)
private def s2 := nxt s1 (.Normal (Square.at 8 2) (Square.at 7 2) false)
private def s3 := nxt s2 (.Normal (Square.at 3 8) (Square.at 2 8) false)
private def s4 := nxt s3 (.Normal (Square.at 7 2) (Square.at 8 2) false)
private def s5 := nxt s4 (.Normal (Square.at 2 8) (Square.at 3 8) false)
private def s6 := nxt s5 (.Normal (Square.at 8 2) (Square.at 7 2) false)
private def s7 := nxt s6 (.Normal (Square.at 3 8) (Square.at 2 8) false)

omit P in
private theorem shuffle_table : ∀ d : Build,
    (@make_move ⟨d⟩ sp0 (.Normal (Square.at 2 8) (Square.at 3 8) false) = .ok (s1, some ()) ∧
     @make_move ⟨d⟩ s1 (.Normal (Square.at 8 2) (Square.at 7 2) false) = .ok (s2, some ()) ∧
     @make_move ⟨d⟩ s2 (.Normal (Square.at 3 8) (Square.at 2 8) false) = .ok (s3, some ()) ∧
     @make_move ⟨d⟩ s3 (.Normal (Square.at 7 2) (Square.at 8 2) false) = .ok (s4, some ())) ∧
    (@make_move ⟨d⟩ s4 (.Normal (Square.at 2 8) (Square.at 3 8) false) = .ok (s5, some ()) ∧
     @make_move ⟨d⟩ s5 (.Normal (Square.at 8 2) (Square.at 7 2) false) = .ok (s6, some ()) ∧
     @make_move ⟨d⟩ s6 (.Normal (Square.at 3 8) (Square.at 2 8) false) = .ok (s7, some ()) ∧
     @make_move ⟨d⟩ s7 (.Normal (Square.at 7 2) (Square.at 8 2) false) =
       .ok (s4.withPly 9, some ())) := by decide +kernel

omit P in
private theorem s4_view : ∀ d : Build,
    (∀ i < 81, @piece_at ⟨d⟩ s4 (Square.ofIdx i) = @piece_at ⟨d⟩ sp0 (Square.ofIdx i)) ∧
    (∀ k c, @hand ⟨d⟩ s4 (Piece.mk' k c) = @hand ⟨d⟩ sp0 (Piece.mk' k c)) ∧
    s4.side_to_move = sp0.side_to_move := by decide +kernel

/-- C61: such repetitions do occur: board, hands and side to move are those of the starting
position again after four moves, but `==` does not say so. -/
theorem C61_repetition : ∃ p q, startpos = .ok p ∧ Game.From p shuffle q ∧
    (∀ s : Square, s.Valid → q.piece_at s = p.piece_at s) ∧
    (∀ k c, q.hand (Piece.mk' k c) = p.hand (Piece.mk' k c)) ∧
    q.side_to_move = p.side_to_move ∧ q.eq p = false := by
  obtain ⟨⟨e1, e2, e3, e4⟩, _⟩ := shuffle_table P.build
  obtain ⟨v1, v2, v3⟩ := s4_view P.build
  have F : Game.From sp0 shuffle s4 := .accept (l := [_, _, _]) (.accept (l := [_, _])
    (.accept (l := [_]) (.accept (l := []) .start (by decide) e1) (by decide) e2) (by decide) e3)
    (by decide) e4
  refine ⟨sp0, s4, startpos_ok, F, fun s hs => ?_, v2, v3,
    C61_never_equal sp0 s4 (.startpos startpos_ok) _ F (by simp [shuffle]) (by simp [shuffle])⟩
  have := v1 s.idx0 (Square.idx0_lt hs)
  rwa [Square.ofIdx_idx0 hs] at this

private theorem shuffle_from (n : U16) :
    Game.From (s4.withPly n) shuffle (s4.withPly (n + 4)) := by
  obtain ⟨_, e1, e2, e3, e4⟩ := shuffle_table P.build
  have f1 := C61_ply_inert s4 n (.Normal (Square.at 2 8) (Square.at 3 8) false)
  have f2 := C61_ply_inert s5 (n + 1) (.Normal (Square.at 8 2) (Square.at 7 2) false)
  have f3 := C61_ply_inert s6 (n + 1 + 1) (.Normal (Square.at 3 8) (Square.at 2 8) false)
  have f4 := C61_ply_inert s7 (n + 1 + 1 + 1) (.Normal (Square.at 7 2) (Square.at 8 2) false)
  rw [show s4.make_move _ = _ from e1, afterPly_some] at f1
  rw [show s5.make_move _ = _ from e2, afterPly_some] at f2
  rw [show s6.make_move _ = _ from e3, afterPly_some] at f3
  rw [show s7.make_move _ = _ from e4, afterPly_some, withPly_withPly] at f4
  rw [show n + 4 = n + 1 + 1 + 1 + 1 by simp only [BitVec.add_assoc]; rfl]
  exact .accept (l := [_, _, _]) (.accept (l := [_, _]) (.accept (l := [_])
    (.accept (l := []) .start (by decide) f1) (by decide) f2) (by decide) f3) (by decide) f4

private theorem shuffles_from (n : U16) (k : Nat) :
    Game.From (s4.withPly n) (List.replicate k shuffle).flatten
      (s4.withPly (n + BitVec.ofNat 16 (4 * k))) := by
  induction k with
  | zero => simpa using Game.From.start (p := s4.withPly n)
  | succ k ih =>
    have := From.append ih (shuffle_from _)
    rw [List.replicate_succ', List.flatten_append, List.flatten_singleton]
    rwa [BitVec.add_assoc, show BitVec.ofNat 16 (4 * k) + 4 = BitVec.ofNat 16 (4 * (k + 1)) by
      apply BitVec.eq_of_toNat_eq
      rw [BitVec.toNat_add, show (4 : U16).toNat = 4 from rfl]
      simp only [BitVec.toNat_ofNat]; omega] at this

omit P in
private theorem shuffles_length (k : Nat) : (List.replicate k shuffle).flatten.length = 4 * k := by
  induction k with
  | zero => rfl
  | succ k ih =>
    rw [List.replicate_succ, List.flatten_cons, List.length_append, ih]
    show 4 + 4 * k = _; omega

/-- There are games of any length. -/
theorem long_game (k : Nat) :
    ∃ p l q, startpos = .ok p ∧ l.length = 4 * (k + 1) ∧ Game.From p l q := by
  obtain ⟨⟨e1, e2, e3, e4⟩, _⟩ := shuffle_table P.build
  have F : Game.From sp0 shuffle s4 := .accept (l := [_, _, _]) (.accept (l := [_, _])
    (.accept (l := [_]) (.accept (l := []) .start (by decide) e1) (by decide) e2) (by decide) e3)
    (by decide) e4
  have S := shuffles_from s4.ply k
  rw [withPly_self] at S
  refine ⟨sp0, _, _, startpos_ok, ?_, From.append F S⟩
  rw [List.length_append, shuffles_length]
  show 4 + 4 * k = _; omega

/-- C61: the bound is exact: a game can be `==` to an earlier state of itself after 65536
moves. -/
theorem C61_sharp : ∃ q l, GameReach q ∧ l.length = 65536 ∧ Game.From q l q ∧ q.eq q = true := by
  obtain ⟨⟨e1, e2, e3, e4⟩, _⟩ := shuffle_table P.build
  have F : Game.From sp0 shuffle s4 := .accept (l := [_, _, _]) (.accept (l := [_, _])
    (.accept (l := [_]) (.accept (l := []) .start (by decide) e1) (by decide) e2) (by decide) e3)
    (by decide) e4
  have S := shuffles_from s4.ply 16384
  rw [show s4.ply + BitVec.ofNat 16 (4 * 16384) = s4.ply by simp, withPly_self] at S
  refine ⟨s4, _, ⟨sp0, shuffle, startpos_ok, F⟩, ?_, S, (PartialPosition.eq_iff _ _).2 rfl⟩
  exact shuffles_length 16384

end ShogiCore
