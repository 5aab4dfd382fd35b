import Verif.Props.Reachable
import Verif.Spec.Edit

/- C63: setting up a position. -/

set_option linter.unusedSectionVars false

namespace ShogiCore
open PartialPosition

variable [P : Profile]

omit P in
theorem lastWrite_cons {α : Type} (f : Edit → Option α) (e : Edit) (l : List Edit) :
    lastWrite f (e :: l) = (lastWrite f l).or (f e) := by
  unfold lastWrite
  rw [List.reverse_cons, List.findSome?_append]
  congr 1
  simp only [List.findSome?_cons, List.findSome?_nil]
  cases f e <;> rfl

/-- One call. -/
theorem edit_step {p : PartialPosition} (hp : ApiReach p) {S : Setup} (h : p.Answers S) {e : Edit}
    (he : e.Valid) : ∃ q, e.run p = .ok q ∧ ApiReach q ∧ q.Answers (S.after [e]) := by
  cases e with
  | piece s o =>
    obtain ⟨q, e, hq⟩ := piece_set_ok (reach_ok hp) he.1 he.2
    refine ⟨q, e, .step hp (.piece_set he.1 he.2 e), ?_, ?_, hq.side.trans h.side,
      hq.ply.trans h.ply, ?_, ?_⟩
    · intro t ht
      have := h.board t ht
      rw [piece_at_ok p ht] at this
      rw [piece_at_ok q ht, hq.cell _ (Square.idx0_lt ht)]
      by_cases e : t = s
      · subst e
        rw [if_pos rfl]
        simp [Setup.after, lastWrite, Edit.atSquare]
      · rw [if_neg (fun e' => e (Square.idx0_inj ht he.1 e'))]
        have e' : s ≠ t := fun x => e x.symm
        simp [Setup.after, lastWrite, Edit.atSquare, e', Res.ok.inj this]
    · intro c
      have := h.hands c
      rw [hand_of_a_player_ok] at this ⊢
      rw [show q.handOf c = p.handOf c by simp only [handOf, hq.hands], Res.ok.inj this]
      rfl
    · rw [show q.get_last_move = p.get_last_move by
        simp only [get_last_move, last_compact_move, hq.last]]
      exact h.last
    · intro c
      have := h.king c
      rw [king_position_ok] at this ⊢
      rw [hq.king]
      by_cases e : o = some (Piece.mk' .King c)
      · rw [if_pos e, OptionSquare.toOption_ofOption_some he.1]
        simp [Setup.after, lastWrite, Edit.kingTo, e]
      · rw [if_neg e, Res.ok.inj this]
        simp [Setup.after, lastWrite, Edit.kingTo, e]
  | hand c x =>
    refine ⟨_, hand_assign_ok p c x, .step hp (.hand he (hand_assign_ok p c x)), h.board, ?_, h.side,
      h.ply, h.last, h.king⟩
    intro d
    have := h.hands d
    rw [hand_of_a_player_ok] at this ⊢
    refine congrArg Res.ok (Eq.trans (handOf_setHand p c d x) ?_)
    by_cases e : d = c
    · subst e; simp [Setup.after, lastWrite, Edit.atHand]
    · have e' : c ≠ d := fun x => e x.symm
      simp [Setup.after, lastWrite, Edit.atHand, e', Res.ok.inj this]
  | side c =>
    exact ⟨_, rfl, .step hp .side, h.board, h.hands, rfl, h.ply, h.last, h.king⟩
  | ply n =>
    refine ⟨_, rfl, .step hp .ply, ?_⟩
    unfold ply_set
    by_cases e : n = 0
    · rw [if_pos e]
      refine ⟨h.board, h.hands, h.side, ?_, h.last, h.king⟩
      rw [h.ply]
      simp [Setup.after, lastWrite, Edit.atPly, e]
    · rw [if_neg e]
      refine ⟨h.board, h.hands, h.side, ?_, h.last, h.king⟩
      have e : ¬ n = 0#16 := e
      simp [Setup.after, lastWrite, Edit.atPly, e, get_ply]

omit P in
theorem Setup.after_cons (S : Setup) (e : Edit) (l : List Edit) :
    S.after (e :: l) = (S.after [e]).after l := by
  unfold Setup.after
  simp only [lastWrite_cons]
  have h1 : ∀ {α : Type} (a b : Option α) (d : α), (a.or b).getD d = a.getD (b.getD d) := by
    intro α a b d; cases a <;> rfl
  have h2 : ∀ {α : Type} (f : Edit → Option α), lastWrite f [] = none := fun _ => rfl
  simp only [h1, h2, Option.none_or, Option.or_assoc]

/-! ### C63 -/

/-- C63: whatever is written in whatever order, a program of editing calls returns, every square,
hand, the side to move and the move number are what was last written there (the move number 0
is ignored) or as before, the last move is as before, and `king_position` is where the last
king was placed or as before. -/
theorem C63_program (p : PartialPosition) (hp : ApiReach p) (S : Setup) (h : p.Answers S)
    (l : List Edit) (hl : ∀ e ∈ l, e.Valid) :
    ∃ q, runEdits p l = .ok q ∧ ApiReach q ∧ q.Answers (S.after l) := by
  induction l generalizing p S with
  | nil => exact ⟨p, rfl, hp, h⟩
  | cons e l ih =>
    obtain ⟨r, e1, hr, hs⟩ := edit_step hp h (hl e (by simp))
    obtain ⟨q, e2, hq, hs'⟩ := ih r hr _ hs (fun x hx => hl x (by simp [hx]))
    refine ⟨q, ?_, hq, by rw [Setup.after_cons]; exact hs'⟩
    simp only [runEdits, e1, Res.bind_ok]
    exact e2

omit P in
/-- With at most one writer the order is irrelevant. -/
theorem lastWrite_perm {α : Type} (f : Edit → Option α) {l l' : List Edit} (h : l.Perm l')
    (hu : l.Pairwise fun a b => f a = none ∨ f b = none) : lastWrite f l = lastWrite f l' := by
  induction h with
  | nil => rfl
  | cons x _ ih => rw [lastWrite_cons, lastWrite_cons, ih (List.pairwise_cons.1 hu).2]
  | swap x y l =>
    rw [lastWrite_cons, lastWrite_cons, lastWrite_cons, lastWrite_cons, Option.or_assoc,
      Option.or_assoc]
    have := (List.pairwise_cons.1 hu).1 x (by simp)
    rcases this with e | e <;> rw [e] <;> simp
  | trans h1 _ ih1 ih2 =>
    rw [ih1 hu, ih2 (h1.pairwise hu (fun h => h.symm))]

/-- C63: two programs whose last writes agree give the same position (`==`, and identical in
every hidden field). -/
theorem C63_equal (p q q' : PartialPosition) (hp : ApiReach p) (l l' : List Edit)
    (hl : ∀ e ∈ l, e.Valid) (hl' : ∀ e ∈ l', e.Valid) (e : runEdits p l = .ok q)
    (e' : runEdits p l' = .ok q')
    (hb : ∀ s, lastWrite (Edit.atSquare s) l = lastWrite (Edit.atSquare s) l')
    (hh : ∀ c, lastWrite (Edit.atHand c) l = lastWrite (Edit.atHand c) l')
    (hs : lastWrite Edit.atSide l = lastWrite Edit.atSide l')
    (hn : lastWrite Edit.atPly l = lastWrite Edit.atPly l')
    (hk : ∀ c, lastWrite (Edit.kingTo c) l = lastWrite (Edit.kingTo c) l') :
    q = q' ∧ q.eq q' = true := by
  obtain ⟨S, hS⟩ := C62_answers p hp
  obtain ⟨r, e1, hr, h1⟩ := C63_program p hp S hS l hl
  obtain ⟨r', e2, hr', h2⟩ := C63_program p hp S hS l' hl'
  rw [e] at e1; cases e1
  rw [e'] at e2; cases e2
  have : S.after l = S.after l' := by
    unfold Setup.after
    simp only [hb, hh, hs, hn, hk]
  rw [← this] at h2
  have := C62_determined q q' hr hr' _ h1 h2
  exact ⟨this, (PartialPosition.eq_iff q q').2 this⟩

/-- C63: in particular the order of the calls does not matter if no two of them write to the
same place and no colour gets two kings. -/
theorem C63_permutation (p q q' : PartialPosition) (hp : ApiReach p) (l l' : List Edit)
    (hl : ∀ e ∈ l, e.Valid) (hperm : l.Perm l') (e : runEdits p l = .ok q)
    (e' : runEdits p l' = .ok q')
    (hu : l.Pairwise fun a b => (∀ s, a.atSquare s = none ∨ b.atSquare s = none) ∧
      (∀ c, a.atHand c = none ∨ b.atHand c = none) ∧ (a.atSide = none ∨ b.atSide = none) ∧
      (a.atPly = none ∨ b.atPly = none) ∧ ∀ c, a.kingTo c = none ∨ b.kingTo c = none) :
    q = q' ∧ q.eq q' = true :=
  C63_equal p q q' hp l l' hl (fun x hx => hl x (hperm.mem_iff.2 hx)) e e'
    (fun s => lastWrite_perm _ hperm (hu.imp fun h => h.1 s))
    (fun c => lastWrite_perm _ hperm (hu.imp fun h => h.2.1 c))
    (lastWrite_perm _ hperm (hu.imp fun h => h.2.2.1))
    (lastWrite_perm _ hperm (hu.imp fun h => h.2.2.2.1))
    (fun c => lastWrite_perm _ hperm (hu.imp fun h => h.2.2.2.2 c))

/-- Non-vacuity: a king, a hand, the side to move and the number, in two orders. -/
example (p : PartialPosition) (hp : ApiReach p) : ∃ q,
    runEdits p [.piece ⟨1⟩ (some (Piece.mk' .King .White)), .hand .Black Hand.new, .side .White,
      .ply 7] = .ok q ∧
    runEdits p [.ply 7, .side .White, .hand .Black Hand.new,
      .piece ⟨1⟩ (some (Piece.mk' .King .White))] = .ok q := by
  obtain ⟨S, hS⟩ := C62_answers p hp
  have hv : ∀ e ∈ [Edit.piece ⟨1⟩ (some (Piece.mk' .King .White)), .hand .Black Hand.new,
      .side .White, .ply 7], e.Valid := by
    intro e he
    simp only [List.mem_cons, List.not_mem_nil, or_false] at he
    rcases he with rfl | rfl | rfl | rfl
    · exact ⟨by decide, by intro x e; cases e; decide⟩
    · exact Hand.new_valid
    · trivial
    · trivial
  obtain ⟨q, e, _⟩ := C63_program p hp S hS _ hv
  have hperm := (List.reverse_perm [Edit.piece ⟨1⟩ (some (Piece.mk' .King .White)),
    .hand .Black Hand.new, .side .White, .ply 7]).symm
  obtain ⟨q', e', _⟩ := C63_program p hp S hS _ (fun x hx => hv x (hperm.mem_iff.2 hx))
  refine ⟨q, e, ?_⟩
  rw [(C63_permutation p q q' hp _ _ hv hperm e e' ?_).1]
  · exact e'
  · simp [Edit.atSquare, Edit.atHand, Edit.atSide, Edit.atPly, Edit.kingTo]

/-- C63 without the condition on kings is false: placing two black kings in the two possible
orders gives positions that are not `==`, although they have the same pieces everywhere. -/
theorem C63_refuted_two_kings (p : PartialPosition) (hp : ApiReach p) (s t : Square) (hs : s.Valid)
    (ht : t.Valid) (hne : s ≠ t) :
    ∃ q q', runEdits p [.piece s (some (Piece.mk' .King .Black)),
        .piece t (some (Piece.mk' .King .Black))] = .ok q ∧
      runEdits p [.piece t (some (Piece.mk' .King .Black)),
        .piece s (some (Piece.mk' .King .Black))] = .ok q' ∧
      q.eq q' = false ∧ ∀ u : Square, u.Valid → q.piece_at u = q'.piece_at u := by
  obtain ⟨S, hS⟩ := C62_answers p hp
  have hv : ∀ u : Square, u.Valid → (Edit.piece u (some (Piece.mk' .King .Black))).Valid :=
    fun u hu => ⟨hu, by intro x e; cases e; decide⟩
  obtain ⟨q, e, hq, h⟩ := C63_program p hp S hS [.piece s (some (Piece.mk' .King .Black)),
    .piece t (some (Piece.mk' .King .Black))] (by simp [hv s hs, hv t ht])
  obtain ⟨q', e', hq', h'⟩ := C63_program p hp S hS [.piece t (some (Piece.mk' .King .Black)),
    .piece s (some (Piece.mk' .King .Black))] (by simp [hv s hs, hv t ht])
  refine ⟨q, q', e, e', ?_, ?_⟩
  · have : ¬ q.eq q' = true := by
      intro heq
      have heq := (PartialPosition.eq_iff q q').1 heq
      subst heq
      have := (h.king .Black).symm.trans (h'.king .Black)
      simp [Setup.after, lastWrite, Edit.kingTo] at this
      exact hne this.symm
    simpa using this
  · intro u hu
    rw [h.board u hu, h'.board u hu]
    simp only [Setup.after, lastWrite, Edit.atSquare, List.reverse_cons, List.reverse_nil,
      List.nil_append, List.cons_append, List.findSome?_cons, List.findSome?_nil]
    by_cases h1 : s = u <;> by_cases h2 : t = u <;> simp [h1, h2]

end ShogiCore
