import Verif.Lemmas.Symmetry
import Verif.Props.Mirror
import Verif.Props.Explain
import Verif.Props.Referee

/- C88: the game looks the same from every point of view: the crate's moves, and the answers of a client
built on the crate. -/

set_option linter.unusedSectionVars false

namespace ShogiCore
open PartialPosition
variable [P : Profile]

namespace View
variable (v : View)

omit P in
theorem column_at {f r : Nat} (i : Inside f r) : (Square.at f r).column = f ∧ (Square.at f r).row = r := by
  obtain ⟨a, b, c⟩ := column_row (at_valid i.1 i.2)
  obtain ⟨e1, e2⟩ := at_inj i.1 i.2 a b c
  exact ⟨e1.symm, e2.symm⟩

omit P in
theorem square_valid {s : Square} (h : s.Valid) : (v.square s).Valid := by
  obtain ⟨a, b, _⟩ := column_row h
  obtain ⟨a', b'⟩ := (v.inside (f := s.column) (r := s.row)).2 ⟨a, b⟩
  exact at_valid a' b'

omit P in
theorem square_coords {s : Square} (h : s.Valid) :
    (v.square s).column = v.file s.column ∧ (v.square s).row = v.rank s.row := by
  obtain ⟨a, b, _⟩ := column_row h
  exact column_at (v.inside.2 ⟨a, b⟩)

omit P in
theorem square_square {s : Square} (h : s.Valid) : v.square (v.square s) = s := by
  obtain ⟨a, b, c⟩ := column_row h
  obtain ⟨e1, e2⟩ := v.square_coords h
  rw [square, e1, e2, v.file_file (by omega), v.rank_rank (by omega), ← c]

omit P in
theorem square_inj {s t : Square} (h : s.Valid) (h' : t.Valid) : v.square s = v.square t ↔ s = t :=
  ⟨fun e => by rw [← v.square_square h, e, v.square_square h'], fun e => e ▸ rfl⟩

omit P in
theorem piece_mk (k : PieceKind) (c : Color) : v.piece (Piece.mk' k c) = Piece.mk' k (v.color c) := by
  rw [piece, kindOfPiece_mk, colorOfPiece_mk]

omit P in
theorem piece_piece {x : Piece} (h : x.Valid) : v.piece (v.piece x) = x := by
  obtain ⟨k, c, rfl⟩ := Piece.exists_mk' h
  rw [piece_mk, piece_mk, color_color]

omit P in
theorem move_valid {m : Move} (h : m.Valid) : (v.move m).Valid := by
  cases m with
  | Normal s t pr => exact ⟨v.square_valid h.1, v.square_valid h.2⟩
  | Drop x t => exact ⟨Piece.mk'_valid _ _, v.square_valid h.2⟩

omit P in
theorem move_move {m : Move} (h : m.Valid) : v.move (v.move m) = m := by
  cases m with
  | Normal s t pr => simp only [move, v.square_square h.1, v.square_square h.2]
  | Drop x t => simp only [move, v.piece_piece h.1, v.square_square h.2]

omit P in
theorem move_action {m : Move} (h : m.Valid) : (v.move m).action = v.action m.action := by
  cases m with
  | Normal s t pr =>
    simp only [move, Move.action, action, (v.square_coords h.1).1, (v.square_coords h.1).2,
      (v.square_coords h.2).1, (v.square_coords h.2).2]
  | Drop x t =>
    simp only [move, Move.action, action, (v.square_coords h.2).1, (v.square_coords h.2).2, piece, kindOfPiece_mk,
      colorOfPiece_mk]

omit P in
theorem action_onBoard {m : Move} (h : m.Valid) : m.action.OnBoard := by
  cases m with
  | Normal s t pr => exact ⟨⟨(column_row h.1).1, (column_row h.1).2.1⟩, (column_row h.2).1, (column_row h.2).2.1⟩
  | Drop x t => exact ⟨(column_row h.2).1, (column_row h.2).2.1⟩

end View

namespace PartialPosition
variable {v : View} {p p' : PartialPosition}

theorem Seen.some_at (h : Seen v p p') {s : Square} (hs : s.Valid) {k c}
    (e : p.piece_at s = .ok (some (Piece.mk' k c))) :
    p'.piece_at (v.square s) = .ok (some (Piece.mk' k (v.color c))) := by
  rw [h.board s hs, e, ← v.piece_mk]; rfl

theorem Seen.none_at (h : Seen v p p') {s : Square} (hs : s.Valid) (e : p.piece_at s = .ok none) :
    p'.piece_at (v.square s) = .ok none := by
  rw [h.board s hs, e]; rfl

theorem Seen.symm (hp : ApiReach p) (h : Seen v p p') : Seen v p' p := by
  refine ⟨fun s hs => ?_, fun k c hk => ?_, by rw [h.side, v.color_color], h.ply.symm⟩
  · have := h.board _ (v.square_valid hs)
    rw [v.square_square hs] at this
    rw [this]
    rcases C25_total p hp _ (v.square_valid hs) with e | ⟨k, c, e⟩
    · rw [e]; rfl
    · rw [e]
      show _ = Res.ok (some (v.piece (v.piece _)))
      rw [v.piece_mk, v.piece_mk, v.color_color]
  · have := h.hand k (v.color c) hk
    rw [v.color_color] at this
    exact this.symm

/-- The abstract states look like each other as well. -/
theorem Seen.shows (h : Seen v p p') {S S' : Shogi} (hS : p.Shows S) (hS' : p'.Shows S') : Shogi.Seen v S S' := by
  refine ⟨fun f r i => ?_, fun c k hk => ?_, by rw [← hS.side, ← hS'.side, h.side]⟩
  · have hv := at_valid i.1 i.2
    have e := h.board _ hv
    rw [hS.at hv, hS'.at (v.square_valid hv), (v.square_coords hv).1, (v.square_coords hv).2, (View.column_at i).1,
      (View.column_at i).2] at e
    generalize S'.board (v.file f) (v.rank r) = y at e ⊢
    cases hx : S.board f r with
    | none =>
      rw [hx] at e
      cases y with
      | none => rfl
      | some y => cases e
    | some x =>
      rw [hx] at e
      obtain ⟨k, c⟩ := x
      have e : y.piece = some (v.piece (Piece.mk' k c)) := Res.ok.inj e
      rw [v.piece_mk] at e
      exact piece_eq_some e
  · obtain ⟨n, e, hn⟩ := hS.hand c k hk
    obtain ⟨n', e', hn'⟩ := hS'.hand (v.color c) k hk
    rw [h.hand k c hk, e] at e'
    cases e'
    rw [← hn, ← hn']

theorem Seen.acceptable (h : Seen v p p') {m : Move} (hm : m.Valid) (ha : p.Acceptable m) :
    p'.Acceptable (v.move m) := by
  cases m with
  | Normal s t pr =>
    obtain ⟨k, a1, a2, a3⟩ := ha
    refine ⟨k, by rw [h.side]; exact h.some_at hm.1 a1, ?_, a3⟩
    rcases a2 with a2 | ⟨l, hl, a2⟩
    · exact .inl (h.none_at hm.2 a2)
    · exact .inr ⟨l, hl, by rw [h.side, ← v.color_other]; exact h.some_at hm.2 a2⟩
  | Drop x t =>
    obtain ⟨k, n, rfl, a2, a3, a4, a5⟩ := ha
    exact ⟨k, n, by rw [h.side, v.piece_mk], a2, h.none_at hm.2 a3, by rw [v.piece_mk, h.hand _ _ a2]; exact a4, a5⟩

end PartialPosition

/-- C88: the rules are the same from every point of view. -/
theorem C88_rules (v : View) (S S' : Shogi) (h : Shogi.Seen v S S') :
    (∀ a, S'.Legal (v.action a) ↔ S.Legal a) ∧ (∀ c, S'.InCheck (v.color c) ↔ S.InCheck c) ∧
      (S'.Mated ↔ S.Mated) :=
  ⟨fun _ => Shogi.legal_seen_iff h, fun _ => Shogi.inCheck_seen_iff h, Shogi.mated_seen_iff h⟩

/-- C88: every position can be looked at from every point of view. -/
theorem C88_exists (v : View) (p : PartialPosition) (hp : ApiReach p) (hply : p.get_ply ≠ 0) :
    ∃ p', ApiReach p' ∧ Seen v p p' := by
  obtain ⟨p', h1, h2, h3, h4, h5⟩ := C36_all_positions
    (fun s => match p.piece_at (v.square s) with
      | .ok (some x) => if 1 ≤ s.val.toNat ∧ s.val.toNat ≤ 81 then some (v.piece x) else none
      | _ => none) (by
      intro s x e
      split at e
      · split at e
        · cases e; exact Piece.mk'_valid _ _
        · cases e
      · cases e)
    (fun c => p.handOf (v.color c)) (fun c => (reach_ok hp).hand _) (v.color p.side_to_move) p.get_ply hply
  refine ⟨p', h1, fun s hs => ?_, fun k c hk => ?_, h4, h5⟩
  · have hv : 1 ≤ (v.square s).val.toNat ∧ (v.square s).val.toNat ≤ 81 := v.square_valid hs
    rw [h2 _ (v.square_valid hs), v.square_square hs]
    rcases C25_total p hp s hs with e | ⟨k, c, e⟩
    · rw [e]; rfl
    · simp only [e, if_pos hv]; rfl
  · have := h3 (v.color c)
    rw [hand_of_a_player_ok] at this
    rw [hand_ok, hand_ok, Res.ok.inj this, v.color_color]

/-- C88: a move is accepted iff it is from the other point of view, and then the resulting positions look like
each other again. -/
theorem C88_make_move (v : View) (p p' : PartialPosition) (hp : ApiReach p) (hp' : ApiReach p') (h : Seen v p p')
    (m : Move) (hm : m.Valid) : ∃ q q' r, p.make_move m = .ok (q, r) ∧ p'.make_move (v.move m) = .ok (q', r) ∧
      Seen v q q' := by
  have hm' := v.move_valid hm
  by_cases ha : p.Acceptable m
  case neg =>
    have ha' : ¬p'.Acceptable (v.move m) := fun h' => ha (by
      have := (h.symm hp).acceptable hm' h'
      rwa [v.move_move hm] at this)
    obtain ⟨q, e⟩ := (C28_accept_iff p hp m hm).2.1 ha
    obtain ⟨q', e'⟩ := (C28_accept_iff p' hp' _ hm').2.1 ha'
    rcases make_move_ok (reach_ok hp) hm with ⟨_, _, e1, _⟩ | ⟨_, e1⟩ <;> rw [e] at e1 <;> cases e1
    rcases make_move_ok (reach_ok hp') hm' with ⟨_, _, e1, _⟩ | ⟨_, e1⟩ <;> rw [e'] at e1 <;> cases e1
    exact ⟨_, _, none, e, e', h⟩
  have ha' := h.acceptable hm ha
  obtain ⟨q, e⟩ := (C28_accept_iff p hp m hm).1.1 ha
  obtain ⟨q', e'⟩ := (C28_accept_iff p' hp' _ hm').1.1 ha'
  have hq := C29_effect p q hp m hm e
  have hq' := C29_effect p' q' hp' _ hm' e'
  refine ⟨q, q', some (), e, e', ?_, ?_, ?_, ?_⟩
  · intro u hu
    have hu' := v.square_valid hu
    cases m with
    | Normal s t pr =>
      obtain ⟨⟨k, k1, a1, a2, a3⟩, a4, a5⟩ := hq.board
      obtain ⟨⟨l, l1, b1, b2, b3⟩, b4, b5⟩ := hq'.board
      rw [h.some_at hm.1 a1, h.side] at b1
      obtain ⟨rfl, _⟩ := Piece.mk'_inj (Option.some.inj (Res.ok.inj b1))
      have hkk : k1 = l1 := by
        cases pr
        · simp only [Bool.false_eq_true, if_false] at a2 b2; rw [a2, b2]
        · simp only [if_true, ← PieceKind.promote_iff] at a2 b2
          rw [a2] at b2; exact Option.some.inj b2
      subst hkk
      by_cases e1 : u = t
      · subst e1
        rw [a3, b3, h.side, ← v.piece_mk]; rfl
      · by_cases e2 : u = s
        · subst e2
          rw [a4, b4]; rfl
        · rw [a5 u hu e2 e1, b5 _ hu' (mt (v.square_inj hu hm.1).1 e2) (mt (v.square_inj hu hm.2).1 e1), h.board u hu]
    | Drop x t =>
      obtain ⟨a1, a2⟩ := hq.board
      obtain ⟨b1, b2⟩ := hq'.board
      by_cases e1 : u = t
      · subst e1
        rw [a1, b1]; rfl
      · rw [a2 u hu e1, b2 _ hu' (mt (v.square_inj hu hm.2).1 e1), h.board u hu]
  · intro k c hk
    obtain ⟨n, n1, a1, a2, a3⟩ := hq.hands k c hk
    obtain ⟨o, o1, b1, b2, b3⟩ := hq'.hands k (v.color c) hk
    rw [h.hand k c hk, a1] at b1
    cases b1
    rw [a2, b2]
    congr 2
    cases m with
    | Normal s t pr =>
      have hcap : p.Captures t k c ↔ p'.Captures (v.square t) k (v.color c) := by
        simp only [Captures, h.side, v.color_inj, ← v.color_other]
        refine and_congr_right fun _ => exists_congr fun l => and_congr_right fun _ => ⟨fun e2 => h.some_at hm.2 e2, fun e2 => ?_⟩
        have := (h.symm hp).some_at hm'.2 e2
        rwa [v.square_square hm.2, v.color_color] at this
      simp only [HandAfter, View.move] at a3 b3
      by_cases hc : p.Captures t k c
      · rw [a3.1 hc, b3.1 (hcap.1 hc)]
      · rw [a3.2 hc, b3.2 (fun x => hc (hcap.2 x))]
    | Drop x t =>
      obtain ⟨j, d, rfl⟩ := Piece.exists_mk' hm.1
      simp only [HandAfter, View.move, v.piece_mk] at a3 b3
      by_cases hx : Piece.mk' j d = Piece.mk' k c
      · obtain ⟨rfl, rfl⟩ := Piece.mk'_inj hx
        rw [if_pos rfl] at a3 b3
        rw [a3.2, b3.2]
      · rw [if_neg hx] at a3
        rw [if_neg (fun e => hx (by
          obtain ⟨rfl, e1⟩ := Piece.mk'_inj e
          rw [v.color_inj.1 e1]))] at b3
        rw [a3, b3]
  · rw [hq'.side, hq.side, h.side, v.color_other]
  · have h1 := hq.ply
    have h2 := hq'.ply
    rw [h.ply] at h2
    exact BitVec.eq_of_toNat_eq (h2.trans h1.symm)

/-- C88: the squares a player attacks, and whether a king is attacked. -/
theorem C88_attacks (v : View) (p p' : PartialPosition) (hp : ApiReach p) (hp' : ApiReach p') (h : Seen v p p')
    (c : Color) : (∃ b b', p.attacks c = .ok b ∧ p'.attacks (v.color c) = .ok b' ∧
        ∀ t : Square, t.Valid → (b'.Mem (v.square t) ↔ b.Mem t)) ∧
      ∃ w, p.in_check c = .ok w ∧ p'.in_check (v.color c) = .ok w := by
  obtain ⟨S, hS⟩ := C53_total p hp
  obtain ⟨S', hS'⟩ := C53_total p' hp'
  have hs := h.shows hS hS'
  refine ⟨?_, ?_⟩
  · obtain ⟨b, e, _, hb⟩ := C84_attacks p hp S hS c
    obtain ⟨b', e', _, hb'⟩ := C84_attacks p' hp' S' hS' (v.color c)
    refine ⟨b, b', e, e', fun t ht => ?_⟩
    obtain ⟨t1, t2, _⟩ := column_row ht
    rw [hb t ht, hb' _ (v.square_valid ht), (v.square_coords ht).1, (v.square_coords ht).2]
    refine ⟨fun ha => ?_, Shogi.attacked_seen hs ⟨t1, t2⟩⟩
    have := Shogi.attacked_seen hs.symm (v.inside.2 ⟨t1, t2⟩) ha
    rwa [v.color_color, v.file_file (by omega), v.rank_rank (by omega)] at this
  · obtain ⟨w, e, hw⟩ := C84_in_check p hp S hS c
    obtain ⟨w', e', hw'⟩ := C84_in_check p' hp' S' hS' (v.color c)
    have : w = w' := by
      rw [Bool.eq_iff_iff, hw, hw', Shogi.inCheck_seen_iff hs]
    exact ⟨w, e, this ▸ e'⟩

/-- C88: the client's verdict on a move, its reason, and the status of the position are the same, except that
the winner's name changes with the names of the players. -/
theorem C88_client (v : View) (p p' : PartialPosition) (hp : ApiReach p) (hp' : ApiReach p') (h : Seen v p p') :
    (∀ m : Move, m.Valid → (∃ w, p.legal m = .ok w ∧ p'.legal (v.move m) = .ok w) ∧
      ∃ w, p.explain m = .ok w ∧ p'.explain (v.move m) = .ok w) ∧
    ∃ st, p.status_alone = .ok st ∧ p'.status_alone = .ok (v.status st) := by
  obtain ⟨S, hS⟩ := C53_total p hp
  obtain ⟨S', hS'⟩ := C53_total p' hp'
  have hs := h.shows hS hS'
  have hchk : S'.InCheck S'.side.other ↔ S.InCheck S.side.other := by
    rw [hs.side, ← v.color_other, Shogi.inCheck_seen_iff hs]
  refine ⟨fun m hm => ⟨?_, ?_⟩, ?_⟩
  · obtain ⟨w, e, hw⟩ := C85_legal p hp S hS m hm
    obtain ⟨w', e', hw'⟩ := C85_legal p' hp' S' hS' _ (v.move_valid hm)
    have : w = w' := by
      rw [Bool.eq_iff_iff, hw, hw', v.move_action hm, Shogi.legal_seen_iff hs, hchk]
    exact ⟨w, e, this ▸ e'⟩
  · obtain ⟨w, e, h1, h2⟩ := C86_explain p hp S hS m hm
    obtain ⟨w', e', h1', h2'⟩ := C86_explain p' hp' S' hS' _ (v.move_valid hm)
    rw [v.move_action hm] at h1' h2'
    refine ⟨w, e, ?_⟩
    rw [e']
    cases w with
    | ok u =>
      obtain ⟨a, b⟩ := h1.1 rfl
      rw [h1'.2 ⟨Shogi.legal_seen hs a, fun x => b ((Shogi.ended_seen_iff hs).1 x)⟩]
    | error k => rw [(h2' k).2 (Shogi.wrong_seen hs (View.action_onBoard hm) ((h2 k).1 rfl))]
  · obtain ⟨st, e, h1, h2, h3, h4, h5⟩ := C86_status_alone p hp S hS
    obtain ⟨st', e', h1', h2', h3', h4', h5'⟩ := C86_status_alone p' hp' S' hS'
    refine ⟨st, e, ?_⟩
    rw [e']
    rw [hchk] at h1'
    rw [hchk, Shogi.mated_seen_iff hs, hs.side] at h2' h3'
    rw [Shogi.ended_seen_iff hs] at h4'
    cases st with
    | Invalid => rw [h1'.2 (h1.1 rfl)]; rfl
    | InProgress => rw [h4'.2 (h4.1 rfl)]; rfl
    | Draw => exact absurd rfl h5
    | BlackWins =>
      obtain ⟨a, b, c⟩ := h2.1 rfl
      rw [View.status]
      split
      · rw [h3'.2 ⟨a, b, by rw [c, View.color, if_pos ‹_›]; rfl⟩]
      · rw [h2'.2 ⟨a, b, by rw [c, View.color, if_neg ‹_›]⟩]
    | WhiteWins =>
      obtain ⟨a, b, c⟩ := h3.1 rfl
      rw [View.status]
      split
      · rw [h2'.2 ⟨a, b, by rw [c, View.color, if_pos ‹_›]; rfl⟩]
      · rw [h3'.2 ⟨a, b, by rw [c, View.color, if_neg ‹_›]⟩]

/-- C88: lines of legal moves. -/
theorem C88_line (v : View) (p p' : PartialPosition) (hp : ApiReach p) (hp' : ApiReach p') (h : Seen v p p')
    (l : List Move) (q : PartialPosition) (hl : referee.Line p l q) :
    ∃ q', referee.Line p' (l.map v.move) q' ∧ ApiReach q ∧ ApiReach q' ∧ Seen v q q' := by
  induction hl generalizing p' with
  | nil => exact ⟨p', .nil, hp, hp', h⟩
  | @cons p m q l r hm h1 h2 _ ih =>
    obtain ⟨q1, q', w, e, e', hq⟩ := C88_make_move v p p' hp hp' h m hm
    rw [h2] at e; cases e
    obtain ⟨⟨w, a, b⟩, -⟩ := (C88_client v p p' hp hp' h).1 m hm
    have : p.legal m = .ok true := h1
    rw [this] at a; cases a
    obtain ⟨r', i1, i2⟩ := ih q' (hp.step (.make_move hm h2)) (hp'.step (.make_move (v.move_valid hm) e')) hq
    exact ⟨r', .cons (v.move_valid hm) b e' i1, i2⟩

/-- C88: the number of games of `n` legal moves is the same. -/
theorem C88_perft (v : View) (p p' : PartialPosition) (hp : ApiReach p) (hp' : ApiReach p') (h : Seen v p p')
    (n : Nat) : ∃ k, referee.perft n p = .ok k ∧ referee.perft n p' = .ok k := by
  obtain ⟨ls, e, hn, hm⟩ := C83_perft referee C87_checker.1 n p hp
  obtain ⟨ls', e', hn', hm'⟩ := C83_perft referee C87_checker.1 n p' hp'
  have valid : ∀ {p l q}, referee.Line p l q → ∀ m ∈ l, m.Valid := by
    intro p l q hl
    induction hl with
    | nil => simp
    | cons hm _ _ _ ih => exact List.forall_mem_cons.2 ⟨hm, ih⟩
  have twice : ∀ {l : List Move}, (∀ m ∈ l, m.Valid) → (l.map v.move).map v.move = l := by
    intro l hl
    rw [List.map_map]
    exact (List.map_congr_left fun m hm => v.move_move (hl m hm)).trans (List.map_id l)
  have perm : (ls.map (List.map v.move)).Perm ls' := by
    refine (List.perm_ext_iff_of_nodup ?_ hn').2 fun l => ?_
    · refine List.pairwise_map.2 (List.Pairwise.imp_of_mem ?_ hn)
      intro a b ha hb hab he
      obtain ⟨-, q, hq⟩ := (hm a).1 ha
      obtain ⟨-, r, hr⟩ := (hm b).1 hb
      exact hab (by rw [← twice (valid hq), he, twice (valid hr)])
    · rw [List.mem_map, hm']
      constructor
      · rintro ⟨l0, h0, rfl⟩
        obtain ⟨h1, q, hq⟩ := (hm l0).1 h0
        obtain ⟨q', hq', _⟩ := C88_line v p p' hp hp' h l0 q hq
        exact ⟨by rw [List.length_map, h1], q', hq'⟩
      · rintro ⟨h1, q', hq'⟩
        obtain ⟨q, hq, _⟩ := C88_line v p' p hp' hp (h.symm hp) l q' hq'
        exact ⟨_, (hm _).2 ⟨by rw [List.length_map, h1], q, hq⟩, twice (valid hq')⟩
  refine ⟨ls.length, e, ?_⟩
  rw [e', ← perm.length_eq, List.length_map]

/-- C88: a recorded game can be recorded from the other point of view. -/
theorem C88_record (v : View) (p p' : PartialPosition) (hp : ApiReach p) (hp' : ApiReach p') (h : Seen v p p')
    (l : List Move) (Q : Position) (hQ : Position.From p l Q) :
    ∃ Q', Position.From p' (l.map v.move) Q' ∧ Seen v Q.get_inner Q'.get_inner := by
  have step : ∀ (Q R : Position) (l : List Move) (m : Move) (w : Option Unit), Position.From p l Q → m.Valid →
      (∃ Q', Position.From p' (l.map v.move) Q' ∧ Seen v Q.get_inner Q'.get_inner) → Q.make_move m = .ok (R, w) →
      ∃ R', Position.From p' ((if w.isSome then l ++ [m] else l).map v.move) R' ∧ Seen v R.get_inner R'.get_inner := by
    rintro Q R l m w hQ hm ⟨Q', hQ', hs⟩ e
    have r := (C33_replay p hp l Q hQ).2.2.2.2
    have r' := (C33_replay p' hp' _ Q' hQ').2.2.2.2
    obtain ⟨q, q', x, e1, e2, hq⟩ := C88_make_move v _ _ r r' hs m hm
    have e1 : Q.inner.make_move m = .ok (q, x) := e1
    have e2 : Q'.inner.make_move (v.move m) = .ok (q', x) := e2
    rw [position_make_move, e1] at e
    cases e
    have e' := position_make_move Q' (v.move m)
    rw [e2] at e'
    have := Position.From.make_move hQ' (v.move_valid hm) e'
    cases w with
    | none => exact ⟨_, this, hq⟩
    | some u =>
      rw [if_pos (show (some u).isSome = true from rfl), ← List.map_singleton, ← List.map_append] at this
      exact ⟨_, this, hq⟩
  induction hQ with
  | start => exact ⟨_, .start, h⟩
  | make_move h hm e ih => exact step _ _ _ _ _ h hm ih e
  | @make_compact_move l Q R m c w h hm hc e ih =>
    obtain ⟨c', hc', henc⟩ := CompactMove.ofMove_ok hm
    rw [hc] at hc'; cases hc'
    simp only [Position.make_compact_move, CompactMove.toMove_of_encodes hm henc, Res.bind_ok] at e
    cases hr : Q.make_move m with
    | ok x =>
      obtain ⟨R', w'⟩ := x
      rw [hr] at e
      cases e
      exact step _ _ _ _ _ h hm ih hr
    | panic => rw [hr] at e; cases e
    | ub => rw [hr] at e; cases e

/-- Repetitions are seen from every point of view. -/
private theorem same_seen {v : View} {p p' q q' : PartialPosition} (hp : ApiReach p) (hp' : ApiReach p')
    (hq : ApiReach q) (hq' : ApiReach q') (h : Seen v p p') (g : Seen v q q') (e : p.repetitionKey = q.repetitionKey) :
    p'.repetitionKey = q'.repetitionKey := by
  rw [C76_key p q hp hq] at e
  rw [C76_key p' q' hp' hq']
  refine ⟨fun s hs => ?_, fun c => ?_, by rw [h.side, g.side, e.side]⟩
  · rw [← v.square_square hs, h.board _ (v.square_valid hs), g.board _ (v.square_valid hs), e.board _ (v.square_valid hs)]
  · rw [hand_of_a_player_ok, hand_of_a_player_ok]
    refine congrArg Res.ok (same_hand (reach_ok hp') (reach_ok hq') c fun k => ?_)
    by_cases hk : k.InHand
    · have h1 := h.hand k (v.color c) hk
      have h2 := g.hand k (v.color c) hk
      rw [v.color_color] at h1 h2
      have e3 := e.hands (v.color c)
      rw [hand_of_a_player_ok, hand_of_a_player_ok] at e3
      rw [h1, h2, hand_ok, hand_ok, Res.ok.inj e3]
    · rw [hand_ok, hand_ok, Hand.count_ok, Hand.count_ok, dif_neg hk, dif_neg hk]

/-- Keys of positions that look like each other. -/
private inductive Noted (v : View) : List (List U8) → List (List U8) → Prop
  | nil : Noted v [] []
  | cons {p p' k k' ks ks'} : ApiReach p → ApiReach p' → Seen v p p' → p.repetitionKey = .ok k →
      p'.repetitionKey = .ok k' → Noted v ks ks' → Noted v (k :: ks) (k' :: ks')

private theorem noted_count {v : View} {ks ks' : List (List U8)} (h : Noted v ks ks') {p p' : PartialPosition}
    (hp : ApiReach p) (hp' : ApiReach p') (hs : Seen v p p') {k k'} (e : p.repetitionKey = .ok k)
    (e' : p'.repetitionKey = .ok k') : (ks.filter (· == k)).length = (ks'.filter (· == k')).length := by
  induction h with
  | nil => rfl
  | @cons q q' j j' ks ks' hq hq' g f f' _ ih =>
    have : j = k ↔ j' = k' := by
      constructor
      · rintro rfl
        have := same_seen hq hq' hp hp' g hs (f.trans e.symm)
        rw [f', e'] at this; exact Res.ok.inj this
      · rintro rfl
        have := same_seen hq' hq hp' hp (g.symm hq) (hs.symm hp) (f'.trans e'.symm)
        rw [f, e] at this; exact Res.ok.inj this
    simp only [List.filter_cons, beq_iff_eq]
    by_cases hj : j = k
    · rw [if_pos hj, if_pos (this.1 hj), List.length_cons, List.length_cons, ih]
    · rw [if_neg hj, if_neg (mt this.2 hj), ih]

private theorem status_after_seen {v : View} {ks ks' : List (List U8)} (h : Noted v ks ks') {p p' : PartialPosition}
    (hp : ApiReach p) (hp' : ApiReach p') (hs : Seen v p p') :
    ∃ st, p.status_after ks = .ok st ∧ p'.status_after ks' = .ok (v.status st) := by
  obtain ⟨st, e, e'⟩ := (C88_client v p p' hp hp' hs).2
  obtain ⟨k, hk⟩ : ∃ k, p.repetitionKey = .ok k := ⟨_, key_ok hp⟩
  obtain ⟨k', hk'⟩ : ∃ k, p'.repetitionKey = .ok k := ⟨_, key_ok hp'⟩
  have hc := noted_count h hp hp' hs hk hk'
  simp only [status_after, hk, hk', e, e', Res.bind_ok]
  cases st <;> simp only [View.status]
  case InProgress => exact ⟨_, rfl, by rw [hc]; split <;> rfl⟩
  case Draw => exact ⟨_, rfl, rfl⟩
  case Invalid => exact ⟨_, rfl, rfl⟩
  all_goals cases v.ranks <;> exact ⟨_, rfl, rfl⟩

private theorem audit_seen {v : View} (rest : List Move) (last last' : PartialPosition) : ∀ p p' ks ks', ApiReach p →
    ApiReach p' → Seen v p p' → Noted v ks ks' → (∀ m ∈ rest, m.Valid) → p.replay rest = .ok (some last) →
    p'.replay (rest.map v.move) = .ok (some last') →
    ∃ st, p.audit last ks rest = .ok st ∧ p'.audit last' ks' (rest.map v.move) = .ok (v.status st) := by
  induction rest with
  | nil =>
    intro p p' ks ks' hp hp' hs hk _ e e'
    cases e
    cases e'
    simp only [audit, List.map_nil, (PartialPosition.eq_iff _ _).2, if_true]
    exact status_after_seen hk hp hp' hs
  | cons m rest ih =>
    intro p p' ks ks' hp hp' hs hk hv e e'
    have hm := hv m (by simp)
    obtain ⟨st, e1, e1'⟩ := status_after_seen hk hp hp' hs
    obtain ⟨⟨w, e2, e2'⟩, -⟩ := (C88_client v p p' hp hp' hs).1 m hm
    obtain ⟨q, q', x, e3, e3', hq⟩ := C88_make_move v p p' hp hp' hs m hm
    obtain ⟨k, hk1⟩ : ∃ k, p.repetitionKey = .ok k := ⟨_, key_ok hp⟩
    obtain ⟨k', hk1'⟩ : ∃ k, p'.repetitionKey = .ok k := ⟨_, key_ok hp'⟩
    have hst : v.status st = .InProgress ↔ st = .InProgress := by
      cases st <;> simp only [View.status] <;> (try split) <;> simp
    simp only [List.map_cons, replay, e3, e3', Res.bind_ok] at e e'
    simp only [audit, List.map_cons, e1, e1', e2, e2', e3, e3', hk1, hk1', Res.bind_ok, ne_eq, hst]
    by_cases h1 : st = .InProgress
    · rw [if_neg (not_not_intro h1), if_neg (not_not_intro h1)]
      cases w
      · exact ⟨.Invalid, rfl, rfl⟩
      · cases x with
        | none => cases e
        | some u =>
          exact ih q q' _ _ (hp.step (.make_move hm e3)) (hp'.step (.make_move (v.move_valid hm) e3')) hq
            (.cons hp hp' hs hk1 hk1' hk) (fun m hm => hv m (by simp [hm])) e e'
    · rw [if_pos h1, if_pos h1]
      exact ⟨.Invalid, rfl, rfl⟩

/-- C88: … and the game has the same status, except for the winner's name. -/
theorem C88_status (v : View) (p p' : PartialPosition) (hp : ApiReach p) (hp' : ApiReach p') (h : Seen v p p')
    (l : List Move) (Q Q' : Position) (hQ : Position.From p l Q) (hQ' : Position.From p' (l.map v.move) Q') :
    ∃ st, referee.status Q = .ok st ∧ referee.status Q' = .ok (v.status st) := by
  obtain ⟨h1, h2, h3, h4, -⟩ := C33_replay p hp l Q hQ
  obtain ⟨h1', h2', h3', -, -⟩ := C33_replay p' hp' _ Q' hQ'
  obtain ⟨st, e, e'⟩ := audit_seen l Q.get_inner Q'.get_inner p p' [] [] hp hp' h .nil h4 h3 h3'
  exact ⟨st, by simp only [referee, h1, h2, e], by simp only [referee, h1', h2', e']⟩

/-! ### Examples -/

/-- The opening move 7g7f, legal in the starting position, is 3g3f in a mirror and 7c7d or 3c3d for White. -/
example : ∀ v : View, ∃ p', ApiReach p' ∧ Seen v sp0 p' ∧
    p'.legal (v.move (.Normal (Square.at 7 7) (Square.at 7 6) false)) = .ok true ∧
    v.move (.Normal (Square.at 7 7) (Square.at 7 6) false) = (match v with
      | ⟨false, false⟩ => .Normal (Square.at 7 7) (Square.at 7 6) false
      | ⟨true, false⟩ => .Normal (Square.at 3 7) (Square.at 3 6) false
      | ⟨false, true⟩ => .Normal (Square.at 7 3) (Square.at 7 4) false
      | ⟨true, true⟩ => .Normal (Square.at 3 3) (Square.at 3 4) false) := by
  intro v
  have hp : ApiReach sp0 := .startpos startpos_ok
  have hm : Move.Valid (.Normal (Square.at 7 7) (Square.at 7 6) false) := by decide
  obtain ⟨p', hp', h⟩ := C88_exists v sp0 hp (by decide +kernel)
  refine ⟨p', hp', h, ?_, ?_⟩
  · obtain ⟨⟨w, e, e'⟩, -⟩ := (C88_client v sp0 p' hp hp' h).1 _ hm
    obtain ⟨w', e1, hw⟩ := C85_legal sp0 hp .start (shows_start startpos_ok) _ hm
    rw [e] at e1; cases e1
    rw [e', hw.2 ⟨⟨by decide +kernel, nofun⟩, by decide +kernel⟩]
  · obtain ⟨_ | _, _ | _⟩ := v <;> decide

/-- White's king on 1a, Black's gold on 1c; Black holds a gold. -/
private def sample : Res PartialPosition := do
  let p ← PartialPosition.empty.piece_set (Square.at 1 1) (some (Piece.mk' .King .White))
  let p ← p.piece_set (Square.at 1 3) (some (Piece.mk' .Gold .Black))
  p.hand_of_a_player_mut_assign .Black ⟨#v[0, 0, 0, 0, 1, 0, 0, 0]⟩

set_option maxHeartbeats 2000000 in
/-- Black mates with G*1b; from the other side of the table White does, with G*9h (in a 64-bit build with debug
assertions). -/
example : let _ : Profile := ⟨⟨true, .w64⟩⟩
    ∃ p p' Q Q', ApiReach p ∧ ApiReach p' ∧ Seen ⟨true, true⟩ p p' ∧
      Position.From p [.Drop (Piece.mk' .Gold .Black) (Square.at 1 2)] Q ∧
      Position.From p' [.Drop (Piece.mk' .Gold .White) (Square.at 9 8)] Q' ∧
      referee.status Q = .ok .BlackWins ∧ referee.status Q' = .ok .WhiteWins := by
  intro _
  have t : (match sample with
      | .ok p => decide (p.get_ply ≠ 0) &&
        match (Position.arbitrary_position p).make_move (.Drop (Piece.mk' .Gold .Black) (Square.at 1 2)) with
          | .ok (Q, some ()) => decide (referee.status Q = .ok .BlackWins)
          | _ => false
      | _ => false) = true := by decide +kernel
  have put : ∀ p, ApiReach p → ∀ (s : Square) x, s.Valid → Piece.Valid x → ∃ q, p.piece_set s (some x) = .ok q ∧ ApiReach q := by
    intro p hp s x hs hx
    obtain ⟨q, e, _⟩ := C26_piece_set p hp s hs (some x) (by rintro _ ⟨⟩; exact hx)
    exact ⟨q, e, .step hp (.piece_set hs (by rintro _ ⟨⟩; exact hx) e)⟩
  obtain ⟨p1, e1, h1⟩ := put _ .empty (Square.at 1 1) (Piece.mk' .King .White) (by decide) (by decide)
  obtain ⟨p2, e2, h2⟩ := put _ h1 (Square.at 1 3) (Piece.mk' .Gold .Black) (by decide) (by decide)
  cases e3 : p2.hand_of_a_player_mut_assign .Black ⟨#v[0, 0, 0, 0, 1, 0, 0, 0]⟩ with
  | panic => simp only [sample, e1, e2, e3, Res.bind_ok] at t; cases t
  | ub => simp only [sample, e1, e2, e3, Res.bind_ok] at t; cases t
  | ok p =>
    have h3 : ApiReach p := .step h2 (.hand (by decide) e3)
    simp only [sample, e1, e2, e3, Res.bind_ok, Bool.and_eq_true, decide_eq_true_eq] at t
    obtain ⟨t1, t2⟩ := t
    split at t2
    · next Q e =>
      have t2 := of_decide_eq_true t2
      obtain ⟨p', hp', h⟩ := C88_exists ⟨true, true⟩ p h3 t1
      have hQ : Position.From p [.Drop (Piece.mk' .Gold .Black) (Square.at 1 2)] Q := .make_move .start (by decide) e
      obtain ⟨Q', hQ', _⟩ := C88_record ⟨true, true⟩ p p' h3 hp' h _ Q hQ
      obtain ⟨st, a, b⟩ := C88_status ⟨true, true⟩ p p' h3 hp' h _ Q Q' hQ hQ'
      rw [t2] at a; cases a
      exact ⟨p, p', Q, Q', h3, hp', h, hQ, hQ', t2, b⟩
    · cases t2

end ShogiCore
