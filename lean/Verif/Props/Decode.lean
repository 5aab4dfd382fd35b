import Verif.Spec.Decode
import Verif.Props.Takeback
import Verif.Props.Enumerate
import Verif.Props.Repetition

/- C75: moves can be read off diagrams.  C76: a key for detecting repetitions. -/

set_option linter.unusedSectionVars false

namespace ShogiCore
open PartialPosition

variable [P : Profile]

/-! ### C75 -/

omit P in
theorem find_unique {α : Type} {f : α → Bool} {l : List α} {a : α} (ha : a ∈ l) (h : f a = true)
    (hu : ∀ b ∈ l, f b = true → b = a) : l.find? f = some a := by
  induction l with
  | nil => cases ha
  | cons x l ih =>
    rw [List.find?_cons]
    cases hx : f x with
    | true => simp [hu x (by simp) hx]
    | false =>
      simp only
      rcases List.mem_cons.1 ha with rfl | ha
      · rw [h] at hx; cases hx
      · exact ih ha fun b hb => hu b (by simp [hb])

theorem allSquares_valid {s : Square} : s ∈ allSquares ↔ s.Valid := by
  rw [allSquares_eq, List.mem_map]
  constructor
  · rintro ⟨i, hi, rfl⟩; exact Square.ofIdx_valid (List.mem_range.1 hi)
  · intro h; exact ⟨s.idx0, List.mem_range.2 (Square.idx0_lt h), Square.ofIdx_idx0 h⟩

omit P in
theorem owned_mk' (k : PieceKind) (c d : Color) :
    ownedBy c (some (Piece.mk' k d)) = decide (d = c) := by
  revert k c d; decide +kernel

/-- C75: from the boards before and after an accepted move (and whose move it was) a reader finds
the move, including a promotion and whether it was a drop. -/
theorem C75_decode (p q : PartialPosition) (hp : ApiReach p) (m : Move) (hm : m.Valid)
    (e : p.make_move m = .ok (q, some ())) (b b' : Square → Option Piece) (hb : p.Diagram b)
    (hb' : q.Diagram b') : decodeMove p.side_to_move b b' = some m := by
  have f : p.Eff m q := by
    rcases make_move_ok (reach_ok hp) hm with ⟨_, q1, e1, f⟩ | ⟨_, e1⟩
    · rw [e1] at e; cases e; exact f
    · rw [e1] at e; cases e
  have ob : ∀ s : Square, s.Valid → b s = p.cell s.idx0 := by
    intro s hs; have := hb s hs; rw [piece_at_ok p hs] at this; exact (Res.ok.inj this).symm
  have ob' : ∀ s : Square, s.Valid → b' s = q.cell s.idx0 := by
    intro s hs; have := hb' s hs; rw [piece_at_ok q hs] at this; exact (Res.ok.inj this).symm
  unfold decodeMove
  change (match allSquares.find? (fun s => ownedBy p.side (b s) && (b' s).isNone),
      allSquares.find? (fun t => ownedBy p.side (b' t) && decide (b t ≠ b' t)) with
    | some s, some t => some (.Normal s t (decide (b' t ≠ b s)))
    | none, some t => (b' t).map fun x => .Drop x t
    | _, none => none) = some m
  cases m with
  | Normal s t pr =>
    obtain ⟨hs, ht⟩ := hm
    obtain ⟨k, k', a1, a2, a3, a4, a5, a6⟩ := f.body
    have bs : b s = some (Piece.mk' k p.side) := (ob s hs).trans a1
    have b's : b' s = none := by
      rw [ob' s hs, a4 _ (Square.idx0_lt hs), if_neg a3, if_pos rfl]
    have b't : b' t = some (Piece.mk' k' p.side) := by
      rw [ob' t ht, a4 _ (Square.idx0_lt ht), if_pos rfl]
    have bt : b t ≠ b' t := by
      rw [b't, ob t ht]
      rcases a6 with ⟨a6, _⟩ | ⟨l, _, a6, _⟩ <;> rw [a6]
      · simp
      · intro e
        have := (Piece.mk'_inj (Option.some.inj e)).2
        revert this; cases p.side <;> decide
    have rest : ∀ v : Square, v.Valid → v ≠ s → v ≠ t → b' v = b v := by
      intro v hv h1 h2
      rw [ob' v hv, ob v hv, a4 _ (Square.idx0_lt hv),
        if_neg (fun e => h2 (Square.idx0_inj hv ht e)), if_neg (fun e => h1 (Square.idx0_inj hv hs e))]
    rw [find_unique (a := s) (allSquares_valid.2 hs) (by simp [bs, b's, owned_mk']),
      find_unique (a := t) (allSquares_valid.2 ht) (by simp [b't, owned_mk', b't ▸ bt])]
    · simp only [Option.some.injEq, Move.Normal.injEq, true_and]
      rw [b't, bs]
      cases pr
      · simp only [Bool.false_eq_true, if_false] at a2
        simp [a2]
      · simp only [if_true] at a2
        have : k' ≠ k := by
          rintro rfl
          exact absurd a2 ((by decide : ∀ k : PieceKind, k.promote ≠ some k) k')
        simp only [ne_eq, Option.some.injEq, decide_eq_true_eq]
        exact fun e => this (Piece.mk'_inj e).1
    · intro v hv h
      have hv := allSquares_valid.1 hv
      by_cases h1 : v = s
      · subst h1; simp [b's, ownedBy] at h
      · by_cases h2 : v = t
        · exact h2
        · simp [rest v hv h1 h2] at h
    · intro v hv h
      have hv := allSquares_valid.1 hv
      by_cases h1 : v = s
      · exact h1
      · by_cases h2 : v = t
        · subst h2; simp [b't] at h
        · rw [rest v hv h1 h2] at h
          cases hx : b v <;> simp [hx, ownedBy] at h
  | Drop x t =>
    have ht : t.Valid := hm.2
    obtain ⟨k, hk, a1, a2, a3, a4, a5, a6⟩ := f.body
    have bt : b t = none := (ob t ht).trans a2
    have b't : b' t = some x := by rw [ob' t ht, a4 _ (Square.idx0_lt ht), if_pos rfl]
    have rest : ∀ v : Square, v.Valid → v ≠ t → b' v = b v := by
      intro v hv h2
      rw [ob' v hv, ob v hv, a4 _ (Square.idx0_lt hv),
        if_neg (fun e => h2 (Square.idx0_inj hv ht e))]
    have hnone : allSquares.find? (fun s => ownedBy p.side (b s) && (b' s).isNone) = none := by
      rw [List.find?_eq_none]
      intro v hv h
      have hv := allSquares_valid.1 hv
      by_cases h2 : v = t
      · subst h2; simp [b't] at h
      · rw [rest v hv h2] at h
        cases hx : b v <;> simp [hx, ownedBy] at h
    rw [hnone, find_unique (a := t) (allSquares_valid.2 ht) (by simp [b't, bt, a1, owned_mk'])]
    · simp [b't]
    · intro v hv h
      have hv := allSquares_valid.1 hv
      by_cases h2 : v = t
      · exact h2
      · simp [rest v hv h2] at h

/-- C75: different accepted moves lead to different boards. -/
theorem C75_distinct (p q q' : PartialPosition) (hp : ApiReach p) (m m' : Move) (hm : m.Valid)
    (hm' : m'.Valid) (e : p.make_move m = .ok (q, some ())) (e' : p.make_move m' = .ok (q', some ()))
    (h : ∀ s : Square, s.Valid → q.piece_at s = q'.piece_at s) : m = m' := by
  have sh : ∀ r : PartialPosition, r.Diagram fun s => r.cell s.idx0 := fun r s hs => piece_at_ok r hs
  have h1 := C75_decode p q hp m hm e _ _ (sh p) (sh q)
  have h2 := C75_decode p q' hp m' hm' e' _ (fun s => q.cell s.idx0) (sh p)
    (fun s hs => by rw [← h s hs]; exact sh q s hs)
  rw [h1] at h2
  exact Option.some.inj h2

/-- C75: a game is determined by its diagrams: two games from the same position that show the same
boards move by move are the same, including all hands. -/
theorem C75_game (p : PartialPosition) (hp : ApiReach p) (l l' : List Move) (hl : ∀ m ∈ l, m.Valid)
    (hl' : ∀ m ∈ l', m.Valid) (hlen : l.length = l'.length)
    (h : ∀ i ≤ l.length, ∃ q q', p.replay (l.take i) = .ok (some q) ∧
      p.replay (l'.take i) = .ok (some q') ∧ ∀ s : Square, s.Valid → q.piece_at s = q'.piece_at s) :
    l = l' := by
  induction l generalizing l' p with
  | nil => cases l' with
    | nil => rfl
    | cons => cases hlen
  | cons m l ih =>
    cases l' with
    | nil => cases hlen
    | cons m' l' =>
      obtain ⟨q, q', e, e', hb⟩ := h 1 (by simp)
      have hm := hl m (by simp)
      have hm' := hl' m' (by simp)
      simp only [List.take_succ_cons, List.take_zero, replay] at e e'
      have step : ∀ {m : Move} {q : PartialPosition}, m.Valid →
          (p.make_move m >>= fun x => if x.2.isSome = true then Res.ok (some x.1) else Res.ok none) =
            .ok (some q) → p.make_move m = .ok (q, some ()) := by
        intro m q hm e
        rcases make_move_ok (reach_ok hp) hm with ⟨_, q1, e1, _⟩ | ⟨_, e1⟩ <;> rw [e1] at e
        · simp at e; rw [e1, e]
        · simp at e
      have e := step hm e
      have e' := step hm' e'
      obtain rfl := C75_distinct p q q' hp m m' hm hm' e e' hb
      rw [e] at e'; cases e'
      rw [ih q (.step hp (.make_move hm e)) l' (fun x hx => hl x (by simp [hx]))
        (fun x hx => hl' x (by simp [hx])) (by simpa using hlen) ?_]
      intro i hi
      obtain ⟨r, r', f, f', hr⟩ := h (i + 1) (by simp; exact hi)
      simp only [List.take_succ_cons, replay, e, Res.bind_ok, Option.isSome_some, if_true] at f f'
      exact ⟨r, r', f, f', hr⟩

/-! ### C76 -/

omit P in
theorem beforeLast {a b : List U8} (h : asciiByte ' ' ∉ b) :
    beforeLastSpace (a ++ asciiByte ' ' :: b) = a := by
  unfold beforeLastSpace
  rw [List.reverse_append, List.reverse_cons, List.append_assoc, List.dropWhile_append_of_pos]
  · simp
  · intro x hx
    have hx := List.mem_reverse.1 hx
    simp only [ne_eq, decide_not, Bool.not_eq_true', decide_eq_false_iff_not]
    rintro rfl
    exact h hx

theorem key_ok {p : PartialPosition} (hp : ApiReach p) :
    p.repetitionKey = .ok (p.boardChunks.flatten ++ asciiByte ' ' ::
      (colorText p.side ++ asciiByte ' ' :: handsText (p.handOf .Black) (p.handOf .White))) := by
  unfold repetitionKey
  rw [to_sfen_owned_ok (reach_ok hp), sfen_text]
  simp only [Res.bind_ok, Res.pure_eq]
  rw [show ∀ (a b c d : List U8) (s : U8), a ++ s :: (b ++ s :: (c ++ s :: d)) =
    (a ++ s :: (b ++ s :: c)) ++ s :: d by intros; simp]
  rw [beforeLast fun h => absurd (decimal_digits _ _ h) (by decide)]

/-- C76: the SFEN without the move number is the same text exactly if board, hands and side to move
are the same. -/
theorem C76_key (p q : PartialPosition) (hp : ApiReach p) (hq : ApiReach q) :
    p.repetitionKey = q.repetitionKey ↔ p.SamePosition q := by
  have hp' : ApiReach (p.ply_set 1).1 := .step hp .ply
  have hq' : ApiReach (q.ply_set 1).1 := .step hq .ply
  constructor
  · intro h
    rw [key_ok hp, key_ok hq] at h
    have e : (p.ply_set 1).1.to_sfen_owned = (q.ply_set 1).1.to_sfen_owned := by
      rw [to_sfen_owned_ok (reach_ok hp'), to_sfen_owned_ok (reach_ok hq'), sfen_text, sfen_text]
      have key : ∀ (a b c d : List U8) (s : U8), a ++ s :: (b ++ s :: (c ++ s :: d)) =
          (a ++ s :: (b ++ s :: c)) ++ s :: d := by intros; simp
      rw [key, key]
      exact congrArg (fun x => Res.ok (x ++ asciiByte ' ' :: decimal 1)) (Res.ok.inj h)
    obtain ⟨h1, h2, h3, _⟩ := C36_injective _ _ hp' hq' e
    exact ⟨h1, h3, h2⟩
  · intro h
    have ha : (p.ply_set 1).1.AlikeButLast
        { (q.ply_set 1).1 with king_square := (p.ply_set 1).1.king_square } :=
      ⟨h.board, h.hands, h.side, rfl, fun _ => rfl⟩
    have hh := (alike_iff.1 ha).2.1
    have hb : p.boardChunks = q.boardChunks := by
      have key : ∀ r, 1 ≤ r ∧ r ≤ 9 → p.rankCells r = q.rankCells r := by
        intro r hr
        unfold rankCells
        apply List.map_congr_left
        intro f hf
        have hf' : 1 ≤ f ∧ f ≤ 9 := by simp at hf; omega
        rw [h.board _ (at_idx hf' hr).1]
      simp only [boardChunks, List.flatMap_cons, List.flatMap_nil, key 1 (by omega),
        key 2 (by omega), key 3 (by omega), key 4 (by omega), key 5 (by omega), key 6 (by omega),
        key 7 (by omega), key 8 (by omega), key 9 (by omega)]
    rw [key_ok hp, key_ok hq, hb, show p.side = q.side from h.side,
      show p.handOf .Black = q.handOf .Black from hh .Black,
      show p.handOf .White = q.handOf .White from hh .White]

theorem same_iff {p q : PartialPosition} : p.SamePosition q ↔
    (∀ i < 81, p.cell i = q.cell i) ∧ (∀ c, p.handOf c = q.handOf c) ∧ p.side = q.side := by
  constructor
  · intro h
    refine ⟨fun i hi => ?_, fun c => ?_, h.side⟩
    · have hv := Square.ofIdx_valid hi
      have e := h.board _ hv
      rw [piece_at_ok p hv, piece_at_ok q hv, Square.idx0_ofIdx hi] at e
      exact Res.ok.inj e
    · have e := h.hands c
      rw [hand_of_a_player_ok, hand_of_a_player_ok] at e
      exact Res.ok.inj e
  · rintro ⟨h1, h2, h3⟩
    refine ⟨fun s hs => ?_, fun c => ?_, h3⟩
    · rw [piece_at_ok p hs, piece_at_ok q hs, h1 _ (Square.idx0_lt hs)]
    · rw [hand_of_a_player_ok, hand_of_a_player_ok, h2]

theorem PartialPosition.SamePosition.symm {p q : PartialPosition} (h : p.SamePosition q) :
    q.SamePosition p :=
  ⟨fun s hs => (h.board s hs).symm, fun c => (h.hands c).symm, h.side.symm⟩

theorem PartialPosition.SamePosition.acc {p q : PartialPosition} (h : p.SamePosition q) {m : Move}
    (hm : m.Valid) (ha : p.Acc m) : q.Acc m := by
  obtain ⟨h1, h2, h3⟩ := same_iff.1 h
  cases m with
  | Normal s t pr =>
    obtain ⟨k, a1, a2, a3⟩ := ha
    rw [h1 _ (Square.idx0_lt hm.1)] at a1
    rw [h1 _ (Square.idx0_lt hm.2)] at a2
    rw [h3] at a1 a2
    exact ⟨k, a1, a2, a3⟩
  | Drop x t =>
    obtain ⟨k, hk, a1, a2, a3⟩ := ha
    have ht : t.Valid := hm.2
    rw [h1 _ (Square.idx0_lt ht)] at a2
    rw [h2, h3] at a3
    rw [h3] at a1
    exact ⟨k, hk, a1, a2, a3⟩

theorem eff_same {p p' q q' : PartialPosition} (h : p.SamePosition p') {m : Move} (hm : m.Valid)
    (e : p.Eff m q) (e' : p'.Eff m q') : q.SamePosition q' := by
  obtain ⟨h1, h2, h3⟩ := same_iff.1 h
  refine same_iff.2 ?_
  have eb := e.body
  have eb' := e'.body
  cases m with
  | Normal s t pr =>
    obtain ⟨k, k', a1, a2, a3, a4, a5, a6⟩ := eb
    obtain ⟨l, l', b1, b2, b3, b4, b5, b6⟩ := eb'
    have is := Square.idx0_lt hm.1
    have it := Square.idx0_lt hm.2
    rw [h1 _ is, h3, b1] at a1
    obtain rfl := (Piece.mk'_inj (Option.some.inj a1)).1
    have hkk : k' = l' := by
      cases pr
      · simp only [Bool.false_eq_true, if_false] at a2 b2; rw [a2, b2]
      · simp only [if_true] at a2 b2; rw [a2] at b2; exact Option.some.inj b2
    subst hkk
    refine ⟨?_, ?_, by rw [e.side, e'.side, h3]⟩
    · intro i hi
      rw [a4 i hi, b4 i hi, h3, h1 i hi]
    · intro d
      rcases a6 with ⟨a6, a7⟩ | ⟨x, hx, a6, a7⟩ <;> rcases b6 with ⟨b6, b7⟩ | ⟨y, hy, b6, b7⟩
      · rw [a7, b7, h2]
      · rw [h1 _ it, b6] at a6; cases a6
      · rw [h1 _ it, b6] at a6; cases a6
      · rw [h1 _ it, b6, h3] at a6
        obtain rfl := (Piece.mk'_inj (Option.some.inj a6)).1
        rw [a7, b7, h2, h3]
  | Drop x t =>
    obtain ⟨k, hk, a1, a2, a3, a4, a5, a6⟩ := eb
    obtain ⟨l, hl2, b1, b2, b3, b4, b5, b6⟩ := eb'
    rw [a1, h3] at b1
    obtain rfl := (Piece.mk'_inj b1).1
    refine ⟨?_, ?_, by rw [e.side, e'.side, h3]⟩
    · intro i hi; rw [a4 i hi, b4 i hi, h1 i hi]
    · intro d; rw [a6, b6, h2, h3]

/-- C76: with the same key the same moves are accepted, and the keys afterwards are the same
again; a rejected move changes neither. -/
theorem C76_moves (p p' : PartialPosition) (hp : ApiReach p) (hp' : ApiReach p')
    (h : p.repetitionKey = p'.repetitionKey) (m : Move) (hm : m.Valid) :
    (∃ q q', p.make_move m = .ok (q, some ()) ∧ p'.make_move m = .ok (q', some ()) ∧
      q.repetitionKey = q'.repetitionKey) ∨
    (p.make_move m = .ok (p, none) ∧ p'.make_move m = .ok (p', none)) := by
  have h := (C76_key p p' hp hp').1 h
  rcases make_move_ok (reach_ok hp) hm with ⟨a, q, e, f⟩ | ⟨a, e⟩ <;>
    rcases make_move_ok (reach_ok hp') hm with ⟨a', q', e', f'⟩ | ⟨a', e'⟩
  · exact .inl ⟨q, q', e, e', (C76_key q q' (.step hp (.make_move hm e))
      (.step hp' (.make_move hm e'))).2 (eff_same h hm f f')⟩
  · exact absurd (h.acc hm a) a'
  · exact absurd (h.symm.acc hm a') a
  · exact .inr ⟨e, e'⟩

/-- C76: whatever sequence of moves can be played after one occurrence can be played after the
other, with the same keys. -/
theorem C76_continuations (p p' : PartialPosition) (hp : ApiReach p) (hp' : ApiReach p')
    (h : p.repetitionKey = p'.repetitionKey) (l : List Move) (q : PartialPosition)
    (hl : Game.From p l q) : ∃ q', Game.From p' l q' ∧ q.repetitionKey = q'.repetitionKey := by
  induction hl with
  | start => exact ⟨p', .start, h⟩
  | accept hl hm e ih =>
    obtain ⟨q', hq', hk⟩ := ih
    rcases C76_moves _ q' (from_reach hp hl) (from_reach hp' hq') hk _ hm with
      ⟨r, r', e1, e2, hr⟩ | ⟨e1, _⟩
    · rw [e] at e1; cases e1
      exact ⟨r', .accept hq' hm e2, hr⟩
    · rw [e] at e1; cases e1
  | reject hl hm e ih =>
    obtain ⟨q', hq', hk⟩ := ih
    rcases C76_moves _ q' (from_reach hp hl) (from_reach hp' hq') hk _ hm with
      ⟨r, r', e1, _, hr⟩ | ⟨e1, _⟩
    · rw [e] at e1; cases e1
    · rw [e] at e1; cases e1
      exact ⟨q', hq', hk⟩

/-- C76: the whole SFEN is no such key: within a game it does not occur twice with fewer than 65536
moves between. -/
theorem C76_refuted_sfen (p q : PartialPosition) (hp : ApiReach p) (l : List Move)
    (h : Game.From p l q) (h1 : l ≠ []) (h2 : l.length < 65536) :
    q.to_sfen_owned ≠ p.to_sfen_owned := by
  intro e
  have h3 := (C32_bookkeeping _ _ l hp h).2
  rw [(C36_injective _ _ (from_reach hp h) hp e).2.2.2] at h3
  have h4 := List.length_pos_iff.2 h1
  have h5 := p.get_ply.isLt
  omega

/-- C76: the rooks step aside and back: the same key occurs again, while `==` and the SFEN tell the
two moments apart. -/
theorem C76_recurs : ∃ p q, startpos = .ok p ∧ Game.From p shuffle q ∧
    q.repetitionKey = p.repetitionKey ∧ q.eq p = false ∧ q.to_sfen_owned ≠ p.to_sfen_owned := by
  obtain ⟨p, q, e, h, h1, h2, h3, h4⟩ := C61_repetition
  have hp : ApiReach p := .startpos e
  have hq := from_reach hp h
  refine ⟨p, q, e, h, (C76_key q p hq hp).2 ⟨h1, fun c => ?_, h3⟩, h4,
    C76_refuted_sfen p q hp _ h (by simp [shuffle]) (by simp [shuffle])⟩
  rw [hand_of_a_player_ok, hand_of_a_player_ok,
    same_hand (reach_ok hq) (reach_ok hp) c fun k => h2 k c]

/-- The diagrams before and after 7g7f. -/
example : ∃ p q, startpos = .ok p ∧
    p.make_move (.Normal (Square.at 7 7) (Square.at 7 6) false) = .ok (q, some ()) ∧
    decodeMove .Black (fun s => p.cell s.idx0) (fun s => q.cell s.idx0) =
      some (.Normal (Square.at 7 7) (Square.at 7 6) false) := by
  have hp : ApiReach sp0 := .startpos startpos_ok
  have h0 : sp0.cell (Square.at 7 7).idx0 = some (Piece.mk' .Pawn .Black) ∧
    sp0.cell (Square.at 7 6).idx0 = none ∧ sp0.side = .Black := by decide +kernel
  obtain ⟨b1, b2, b7⟩ := h0
  have m1 : Move.Valid (.Normal (Square.at 7 7) (Square.at 7 6) false) := ⟨by decide, by decide⟩
  rcases make_move_ok (reach_ok hp) m1 with ⟨_, q, e1, f1⟩ | ⟨hn, _⟩
  · refine ⟨sp0, q, startpos_ok, e1, ?_⟩
    have := C75_decode sp0 q hp _ m1 e1 _ _ (fun s hs => piece_at_ok sp0 hs)
      (fun s hs => piece_at_ok q hs)
    rwa [show sp0.side_to_move = .Black from b7] at this
  · exact absurd ⟨.Pawn, by rw [b7]; exact b1, .inl b2, by simp⟩ hn

end ShogiCore
