import Verif.Props.Explain

/- C87: a complete legality checker on top of the crate, and that games end. -/

namespace ShogiCore
open PartialPosition Bitboard
variable [P : Profile]
set_option linter.unusedSectionVars false

/-! ### The same position -/

omit P in
theorem Shogi.same_alike {S T : Shogi} : S.Same T ↔ S.Alike T := by
  constructor
  · rintro ⟨h1, h2, h3⟩
    refine ⟨fun f r i => h1 (f, r) (Shogi.mem_squares.2 i), fun c k hk => h2 c ?_ k ?_, h3⟩
    · cases c <;> simp
    · revert hk; revert k; decide
  · intro h
    refine ⟨fun s hs => h.board _ _ (Shogi.mem_squares.1 hs), fun c _ k hk => h.hand c k ?_, h.side⟩
    revert k; decide

private theorem alikes {p : PartialPosition} {S T : Shogi} (h : p.Shows S) (h' : p.Shows T) : S.Alike T := by
  obtain ⟨h1, h2, h3, _⟩ := C53_unique p S T h h'
  exact ⟨fun f r i => h1 f r i.1 i.2, h2, h3⟩

private theorem same_shows {p q : PartialPosition} {S T : Shogi} (hp : ApiReach p) (hq : ApiReach q) (hS : p.Shows S)
    (hT : q.Shows T) : p.repetitionKey = q.repetitionKey ↔ S.Same T := by
  rw [C76_key p q hp hq, Shogi.same_alike]
  constructor
  · intro h
    have h' : p.Shows { T with ply := p.get_ply.toNat } := by
      refine ⟨fun f r hf hr => ?_, fun c k hk => ?_, ?_, ?_⟩
      · rw [h.board _ (at_valid hf hr)]; exact hT.board f r hf hr
      · obtain ⟨n, e, hn⟩ := hT.hand c k hk
        refine ⟨n, ?_, hn⟩
        have := h.hands c
        rw [hand_of_a_player_ok, hand_of_a_player_ok] at this
        rw [hand_ok, Res.ok.inj this, ← hand_ok]; exact e
      · rw [h.side]; exact hT.side
      · show p.get_ply.toNat = p.get_ply.toNat % 65536
        have := p.get_ply.isLt
        omega
    have := alikes hS h'
    exact ⟨this.board, this.hand, this.side⟩
  · intro h
    refine ⟨fun s hs => ?_, fun c => ?_, by rw [hS.side, hT.side, h.side]⟩
    · obtain ⟨i, j, e⟩ := column_row hs
      rw [e, hS.board _ _ i j, hT.board _ _ i j, h.board _ _ ⟨i, j⟩]
    · rw [hand_of_a_player_ok, hand_of_a_player_ok]
      congr 1
      refine same_hand (reach_ok hp) (reach_ok hq) c fun k => ?_
      by_cases hk : k.InHand
      · obtain ⟨n, e, hn⟩ := hS.hand c k hk
        obtain ⟨n', e', hn'⟩ := hT.hand c k hk
        rw [e, e']
        have := h.hand c k hk
        rw [BitVec.eq_of_toNat_eq (show n.toNat = n'.toNat by omega)]
      · rw [hand_ok, hand_ok, Hand.count_ok, Hand.count_ok, dif_neg hk, dif_neg hk]

/-- Keys of positions that show the given ones. -/
inductive Logged : List (List U8) → List Shogi → Prop
  | nil : Logged [] []
  | cons {p T key ks past} : ApiReach p → p.Shows T → p.repetitionKey = .ok key → Logged ks past →
      Logged (key :: ks) (T :: past)

private theorem logged_count {ks : List (List U8)} {past : List Shogi} (h : Logged ks past) {p : PartialPosition} {T : Shogi}
    {key : List U8} (hp : ApiReach p) (hT : p.Shows T) (hk : p.repetitionKey = .ok key) :
    (ks.filter (· == key)).length = (past.filter fun U => decide (T.Same U)).length := by
  induction h with
  | nil => rfl
  | @cons q U key' ks past hq hU hk' _ ih =>
    have := same_shows hp hq hT hU
    rw [hk, hk', Res.ok.injEq] at this
    by_cases hs : T.Same U
    · rw [List.filter_cons_of_pos (by simp [this.2 hs]), List.filter_cons_of_pos (by simpa using hs)]
      simp [ih]
    · have : key' ≠ key := fun h => hs (this.1 h.symm)
      rw [List.filter_cons_of_neg (by simpa using this), List.filter_cons_of_neg (by simpa using hs), ih]

/-! ### Games -/

namespace Shogi

omit P in
theorem refereed_byRules {S T : Shogi} {past l} (h : S.Refereed past l T) : S.ByRules l T := by
  induction h with
  | start => exact .start
  | next _ _ _ ha e ih => exact .next ih ha e

omit P in
theorem refereed_unique {S T T' : Shogi} {past past' l} (h : S.Refereed past l T) (h' : S.Refereed past' l T') :
    past = past' ∧ T = T' := by
  suffices hs : ∀ l', S.Refereed past' l' T' → l = l' → past = past' ∧ T = T' from hs _ h' rfl
  clear h'
  induction h generalizing past' T' with
  | start =>
    intro l' h' e
    cases h' with
    | start => exact ⟨rfl, rfl⟩
    | next => simp at e
  | @next past l T a U _ _ _ _ e1 ih =>
    intro l' h' e
    cases h' with
    | start => simp at e
    | next h1 _ _ _ e2 =>
      obtain ⟨rfl, e'⟩ := List.append_inj' e rfl
      cases e'
      obtain ⟨rfl, rfl⟩ := ih _ h1 rfl
      rw [e1] at e2; cases e2
      exact ⟨rfl, rfl⟩

omit P in
theorem refereed_prefix {S U : Shogi} {past l} (h : S.Refereed past l U) : ∀ k a rest, l = k ++ a :: rest →
    ∃ past' T V, S.Refereed past' k T ∧ ¬T.Mated ∧ ¬T.Fourth past' ∧ T.Legal a ∧ T.step a = some V ∧
      S.Refereed (T :: past') (k ++ [a]) V := by
  induction h with
  | start => intro k a rest e; simp at e
  | @next past l T b U h h1 h2 h3 h4 ih =>
    intro k a rest e
    rcases List.eq_nil_or_concat rest with rfl | ⟨rest', c, rfl⟩
    · obtain ⟨rfl, e'⟩ := List.append_inj' e rfl
      cases e'
      exact ⟨past, T, U, h, h1, h2, h3, h4, .next h h1 h2 h3 h4⟩
    · rw [List.concat_eq_append, ← List.cons_append, ← List.append_assoc] at e
      obtain ⟨rfl, e⟩ := List.append_inj' e rfl
      exact ih k a rest' rfl

omit P in
theorem refereed_past {S T : Shogi} {past l} (h : S.Refereed past l T) : ∀ U ∈ past, ¬U.Mated := by
  induction h with
  | start => simp
  | next _ h1 _ _ _ ih =>
    intro U hU
    rcases List.mem_cons.1 hU with rfl | hU
    · exact h1
    · exact ih U hU

omit P in
/-- A position of mate does not recur. -/
theorem mated_fourth {S T : Shogi} {past l} (h : S.Refereed past l T) (hm : T.Mated) : ¬T.Fourth past := by
  intro hf
  unfold Fourth at hf
  obtain ⟨U, hU⟩ : ∃ U, U ∈ past.filter fun U => decide (T.Same U) := by
    cases e : past.filter fun U => decide (T.Same U) with
    | nil => rw [e] at hf; simp at hf
    | cons U _ => exact ⟨U, by simp⟩
  obtain ⟨hU, hs⟩ := List.mem_filter.1 hU
  exact refereed_past h U hU (mated_alike (same_alike.1 (of_decide_eq_true hs)) hm)

end Shogi

/-! ### The client -/

/-- What the client says at the end of a game. -/
structure Verdict (v : PositionStatus) (T : Shogi) (past : List Shogi) : Prop where
  progress : v = .InProgress ↔ ¬T.Mated ∧ ¬T.Fourth past
  draw : v = .Draw ↔ T.Fourth past
  black : v = .BlackWins ↔ T.Mated ∧ T.side = .White
  white : v = .WhiteWins ↔ T.Mated ∧ T.side = .Black

private theorem status_after_total {p : PartialPosition} (hp : ApiReach p) (ks : List (List U8)) :
    ∃ v, p.status_after ks = .ok v := by
  obtain ⟨S, hS⟩ := C53_total p hp
  obtain ⟨v, e, _⟩ := C86_status_alone p hp S hS
  rw [status_after, key_ok hp, e]
  cases v <;> exact ⟨_, rfl⟩

private theorem status_after_ok {p : PartialPosition} (hp : ApiReach p) {S T : Shogi} (hT : p.Shows T)
    (hc : ¬T.InCheck T.side.other) {ks : List (List U8)} {past : List Shogi} {l} (hk : Logged ks past)
    (hr : S.Refereed past l T) : ∃ v, p.status_after ks = .ok v ∧ v ≠ .Invalid ∧ Verdict v T past := by
  obtain ⟨v, e, h1, h2, h3, h4, h5⟩ := C86_status_alone p hp T hT
  have hn := logged_count hk hp hT (key_ok hp)
  rw [status_after, key_ok hp, e]
  have hf := fun h => Shogi.mated_fourth hr h
  simp only [Shogi.Ended, hc, false_or, not_false_eq_true, true_and] at h1 h2 h3 h4
  cases v with
  | Invalid => exact (h1.1 rfl).elim
  | Draw => exact absurd rfl h5
  | InProgress =>
    have hm := h4.1 rfl
    simp only [Res.bind_ok]
    by_cases h : T.Fourth past
    · have h' := h
      unfold Shogi.Fourth at h'
      rw [← hn] at h'
      rw [if_pos h']
      exact ⟨_, rfl, by simp, by simp [h], by simp [h], by simp [hm], by simp [hm]⟩
    · have h' := h
      unfold Shogi.Fourth at h'
      rw [← hn] at h'
      rw [if_neg h']
      exact ⟨_, rfl, by simp, by simp [h, hm], by simp [h], by simp [hm], by simp [hm]⟩
  | BlackWins =>
    obtain ⟨hm, hs⟩ := h2.1 rfl
    exact ⟨_, rfl, by simp, by simp [hm], by simp [hf hm], by simp [hm, hs], by simp [hs]⟩
  | WhiteWins =>
    obtain ⟨hm, hs⟩ := h3.1 rfl
    exact ⟨_, rfl, by simp, by simp [hm], by simp [hf hm], by simp [hs], by simp [hm, hs]⟩

omit P in
private theorem refereed_sound {T : Shogi} {past l} (h : Shogi.start.Refereed past l T) : ¬T.InCheck T.side.other := by
  obtain ⟨i1, i2, i3⟩ := Shogi.start_invariants
  exact (Shogi.byRules_invariants (Shogi.refereed_byRules h) i1 i2 i3).2.2

private theorem audit_ok (rest : List Move) (last : PartialPosition) : ∀ p T ks past l, GameReach p → p.Shows T →
    Logged ks past → Shogi.start.Refereed past l T → (∀ m ∈ rest, m.Valid) → p.replay rest = .ok (some last) →
    ∃ v, p.audit last ks rest = .ok v ∧
      ((v ≠ .Invalid ∧ ∃ past' T', Shogi.start.Refereed past' (l ++ rest.map Move.action) T' ∧ last.Shows T' ∧
          Verdict v T' past') ∨
        (v = .Invalid ∧ ¬∃ past' T', Shogi.start.Refereed past' (l ++ rest.map Move.action) T')) := by
  induction rest with
  | nil =>
    intro p T ks past l hp hT hk hr _ e
    cases e
    obtain ⟨v, e, h1, h2⟩ := status_after_ok (game_reach hp) hT (refereed_sound hr) hk hr
    refine ⟨v, ?_, .inl ⟨h1, past, T, by simpa using hr, hT, h2⟩⟩
    rw [audit, if_pos ((PartialPosition.eq_iff _ _).2 rfl), e]
  | cons m rest ih =>
    intro p T ks past l hp hT hk hr hv he
    have hc := refereed_sound hr
    have hm : m.Valid := hv m (by simp)
    obtain ⟨v, e, h1, h2⟩ := status_after_ok (game_reach hp) hT hc hk hr
    obtain ⟨u, eu, hu⟩ := C85_legal p (game_reach hp) T hT m hm
    simp only [audit, e, Res.bind_ok]
    by_cases hi : v = .InProgress
    · subst hi
      simp only [ne_eq, not_true_eq_false, if_false, eu, Res.bind_ok]
      cases u with
      | false =>
        refine ⟨.Invalid, rfl, .inr ⟨rfl, ?_⟩⟩
        rintro ⟨past', T', h⟩
        obtain ⟨past'', T'', V, h', _, _, ha, _⟩ := Shogi.refereed_prefix h l m.action (rest.map Move.action) rfl
        obtain ⟨rfl, rfl⟩ := Shogi.refereed_unique hr h'
        exact Bool.false_ne_true (hu.2 ⟨ha, hc⟩)
      | true =>
        obtain ⟨ha, _⟩ := hu.1 rfl
        obtain ⟨q, U, eq, hU, hq, _⟩ := C81_legal p (game_reach hp) T hT (game_hands hp hT) hc m hm ha
        obtain ⟨k, hkey⟩ : ∃ k, p.repetitionKey = .ok k := ⟨_, key_ok (game_reach hp)⟩
        obtain ⟨n1, n2⟩ := h2.progress.1 rfl
        simp only [replay, eq, Res.bind_ok, Option.isSome_some, if_true] at he
        obtain ⟨v, ev, h⟩ := ih q U (k :: ks) (T :: past) (l ++ [m.action]) (game_trans hp hm eq) hq
          (.cons (game_reach hp) hT hkey hk) (.next hr n1 n2 ha hU) (fun m hm => hv m (by simp [hm])) he
        refine ⟨v, by simp only [if_true, eq, Res.bind_ok, hkey]; exact ev, ?_⟩
        rw [List.map_cons]
        rwa [List.append_assoc, List.singleton_append] at h
    · rw [if_pos hi]
      refine ⟨.Invalid, rfl, .inr ⟨rfl, ?_⟩⟩
      rintro ⟨past', T', h⟩
      obtain ⟨past'', T'', V, h', n1, n2, _⟩ := Shogi.refereed_prefix h l m.action (rest.map Move.action) rfl
      obtain ⟨rfl, rfl⟩ := Shogi.refereed_unique hr h'
      exact hi (h2.progress.2 ⟨n1, n2⟩)

/-- C87: the client answers about any record. -/
theorem C87_total (Q : Position) (hQ : ApiReach Q.initial_position) (hv : ∀ m ∈ Q.get_moves, m.Valid) :
    ∃ v, referee.status Q = .ok v := by
  suffices hs : ∀ (rest : List Move) (p last : PartialPosition) ks, ApiReach p → (∀ m ∈ rest, m.Valid) →
      ∃ v, p.audit last ks rest = .ok v from hs _ _ _ _ hQ hv
  intro rest
  induction rest with
  | nil =>
    intro p last ks hp _
    rw [audit]
    split
    · exact status_after_total hp ks
    · exact ⟨_, rfl⟩
  | cons m rest ih =>
    intro p last ks hp hv
    have hm : m.Valid := hv m (by simp)
    obtain ⟨S, hS⟩ := C53_total p hp
    obtain ⟨v, e⟩ := status_after_total hp ks
    obtain ⟨u, eu, hu⟩ := C85_legal p hp S hS m hm
    simp only [audit, e, Res.bind_ok]
    split
    · exact ⟨_, rfl⟩
    · simp only [eu, Res.bind_ok]
      cases u with
      | false => exact ⟨_, rfl⟩
      | true =>
        obtain ⟨ha, hc⟩ := hu.1 rfl
        obtain ⟨q, eq⟩ := (C28_accept_iff _ hp m hm).1.1 ((acceptable_step hS hm).2
          ((Shogi.shaped_step ha.1.1).2 (Shogi.shaped_no_capture hc ha.1.1)))
        simp only [if_true, eq, Res.bind_ok, key_ok hp]
        exact ih q last _ (.step hp (.make_move hm eq)) (fun m hm => hv m (by simp [hm]))

/-- C87: the status of a position with the game that led to it.  It is `Invalid` iff the moves break a
rule, one of them having been made after the end of the game, for instance.  Otherwise it says how the
game stands. -/
theorem C87_status (p : PartialPosition) (hp : startpos = .ok p) (l : List Move) (Q : Position)
    (h : Position.From p l Q) :
    ∃ v, referee.status Q = .ok v ∧
      (v ≠ .Invalid ↔ ∃ past T, Shogi.start.Refereed past (l.map Move.action) T) ∧
      ∀ past T, Shogi.start.Refereed past (l.map Move.action) T → Q.get_inner.Shows T ∧
        (v = .InProgress ↔ ¬T.Mated ∧ ¬T.Fourth past) ∧ (v = .Draw ↔ T.Fourth past) ∧
        (v = .BlackWins ↔ T.Mated ∧ T.side = .White) ∧ (v = .WhiteWins ↔ T.Mated ∧ T.side = .Black) := by
  obtain ⟨h1, h2, h3, h4, h5⟩ := C33_replay p (.startpos hp) l Q h
  obtain ⟨v, e, h⟩ := audit_ok l Q.get_inner p Shogi.start [] [] [] ⟨p, [], hp, .start⟩ (shows_start hp) .nil .start h4 h3
  simp only [List.nil_append] at h
  refine ⟨v, by simp only [referee, h1, h2, e], ?_, fun past T hr => ?_⟩
  · rcases h with ⟨h, past, T, hr, _⟩ | ⟨rfl, h⟩
    · exact ⟨fun _ => ⟨past, T, hr⟩, fun _ => h⟩
    · exact ⟨fun h => absurd rfl h, fun h' => absurd h' h⟩
  · rcases h with ⟨_, past', T', hr', hs, hV⟩ | ⟨rfl, h⟩
    · obtain ⟨rfl, rfl⟩ := Shogi.refereed_unique hr hr'
      exact ⟨hs, hV.progress, hV.draw, hV.black, hV.white⟩
    · exact absurd ⟨_, _, hr⟩ h

private theorem is_legal_progress {Q : Position} {m : Move} (h : referee.status Q = .ok .InProgress) :
    referee.is_legal Q m = Q.get_inner.explain m := by
  simp only [LegalityChecker.is_legal, h, Res.bind_ok, ne_eq, not_true_eq_false, if_false]; rfl

/-- C87: the client keeps the promises of the trait, follows the rules, and its two answers about the
legality of a move agree. -/
theorem C87_checker : (referee : LegalityChecker).Documented ∧ (referee : LegalityChecker).FollowsRules ∧
    (referee : LegalityChecker).Sound ∧ (referee : LegalityChecker).Honest ∧
    ∀ p m, ApiReach p → m.Valid → ∃ v u, referee.is_legal_partial p m = .ok v ∧
      referee.is_legal_partial_lite p m = .ok u ∧ (u = true ↔ v = .ok ()) := by
  obtain ⟨h, hr⟩ := C85_checker
  have sound : (referee : LegalityChecker).Sound := by
    intro Q S m hQ hm hS hl
    obtain ⟨v, e, h1, _⟩ := C86_explain Q.get_inner hQ S hS m hm
    simp only [LegalityChecker.is_legal] at hl
    cases hs : referee.status Q with
    | panic => rw [hs] at hl; cases hl
    | ub => rw [hs] at hl; cases hl
    | ok x =>
      simp only [hs, Res.bind_ok] at hl
      split at hl
      · cases hl
      · have hl : Q.get_inner.explain m = .ok (.ok ()) := hl
        rw [hl] at e; cases e
        obtain ⟨a, b⟩ := h1.1 rfl
        exact ⟨a, fun c => b (.inl c)⟩
  refine ⟨⟨h.total, h.succeeds, h.all, h.sources, h.targets, h.drops⟩, hr, sound, C81_honest _ sound, fun p m hp hm => ?_⟩
  obtain ⟨S, hS⟩ := C53_total p hp
  obtain ⟨v, e, h1, _⟩ := C86_explain p hp S hS m hm
  obtain ⟨u, eu, hu⟩ := C85_legal p hp S hS m hm
  refine ⟨v, u, e, eu, ?_⟩
  rw [hu, h1]
  exact and_congr_right fun hl => not_congr ⟨.inl, fun h => h.elim id fun h => absurd h fun hm => hm.2 _ (Shogi.shaped_mem hl.1.1) hl.1⟩

/-- C87: the positions built with the checked `make_move` are those of the games by the rules in which
nobody plays on after the end. -/
theorem C87_checked (p : PartialPosition) (hp : startpos = .ok p) (Q : Position) (h : referee.Checked p Q) :
    ∃ past T, Shogi.start.Refereed past (Q.get_moves.map Move.action) T ∧ Q.get_inner.Shows T ∧ GameReach Q.get_inner := by
  obtain ⟨-, -, hL, hH, -⟩ := C87_checker
  have hr : ApiReach p := .startpos hp
  induction h with
  | start => exact ⟨[], _, .start, shows_start hp, ⟨p, [], hp, .start⟩⟩
  | @step Q R m v hQ hm e ih =>
    obtain ⟨past, T, h1, h2, h3⟩ := ih
    have hr' : ApiReach Q.get_inner := game_reach h3
    obtain ⟨c1, c2, _, c4⟩ := C43_make_move referee hH Q hr' m hm
    cases v with
    | error x => obtain ⟨rfl, _⟩ := c4 R x e; exact ⟨past, T, h1, h2, h3⟩
    | ok u =>
      have hl := c1.2 ⟨R, e⟩
      obtain ⟨ha, hc⟩ := hL Q T m hr' hm h2 hl
      obtain ⟨g1, g2, _⟩ := c2 R e
      obtain ⟨q, U, e', hU, hq, _⟩ := C81_legal _ hr' T h2 (game_hands h3 h2) hc m hm ha
      have hR : R.get_inner = q := by
        rw [position_make_move] at g1
        have e' : Q.inner.make_move m = .ok (q, some ()) := e'
        rw [e'] at g1
        cases g1; rfl
      obtain ⟨v, ev, _, hv⟩ := C87_status p hp _ Q (C43_all_legal _ hH p hr Q hQ).1
      have hi : v = .InProgress := by
        simp only [LegalityChecker.is_legal, ev, Res.bind_ok] at hl
        split at hl
        · cases hl
        · next h => exact Classical.not_not.1 h
      obtain ⟨n1, n2⟩ := (hv past T h1).2.1.1 hi
      rw [hR, g2, List.map_append]
      exact ⟨T :: past, U, .next h1 n1 n2 ha hU, hq, game_trans h3 hm e'⟩

/-- C87: … all of them. -/
theorem C87_playable (p : PartialPosition) (hp : startpos = .ok p) (l : List Move) (hl : ∀ m ∈ l, m.Valid)
    (past : List Shogi) (T : Shogi) (h : Shogi.start.Refereed past (l.map Move.action) T) :
    ∃ Q, referee.Checked p Q ∧ Q.get_moves = l ∧ Q.get_inner.Shows T := by
  obtain ⟨-, -, hL, hH, -⟩ := C87_checker
  have hr : ApiReach p := .startpos hp
  suffices hs : ∀ past k T, Shogi.start.Refereed past k T → ∀ l : List Move, k = l.map Move.action → (∀ m ∈ l, m.Valid) →
      ∃ Q, referee.Checked p Q ∧ Q.get_moves = l ∧ Q.get_inner.Shows T from hs _ _ _ h l rfl hl
  intro past k T h
  induction h with
  | start =>
    intro l hl _
    have : l = [] := by simpa using hl.symm
    subst this
    exact ⟨_, .start, rfl, shows_start hp⟩
  | @next past k T a U h n1 n2 ha hU ih =>
    intro l hl hv
    rcases List.eq_nil_or_concat l with rfl | ⟨l', m, rfl⟩
    · simp at hl
    · rw [List.concat_eq_append] at *
      rw [List.map_append] at hl
      obtain ⟨rfl, e⟩ := List.append_inj' hl rfl
      simp only [List.map_cons, List.map_nil, List.cons.injEq, and_true] at e
      subst e
      obtain ⟨Q, h1, rfl, h3⟩ := ih l' rfl fun m hm => hv m (by simp [hm])
      have hm : m.Valid := hv m (by simp)
      obtain ⟨_, _, _, _, hg⟩ := C87_checked p hp Q h1
      have hc := refereed_sound h
      obtain ⟨v, ev, _, h4⟩ := C87_status p hp _ Q (C43_all_legal _ hH p hr Q h1).1
      have hi := (h4 past T h).2.1.2 ⟨n1, n2⟩
      subst hi
      obtain ⟨v, e1, h5, _⟩ := C86_explain _ (game_reach hg) T h3 m hm
      have := h5.2 ⟨ha, fun h => h.elim hc n1⟩
      subst this
      obtain ⟨R, e2⟩ := (C43_make_move referee hH Q (game_reach hg) m hm).1.1 (by rw [is_legal_progress ev, e1])
      obtain ⟨g1, g2, _⟩ := (C43_make_move referee hH Q (game_reach hg) m hm).2.1 R e2
      obtain ⟨q, U', e', hU', hq, _⟩ := C81_legal _ (game_reach hg) T h3 (game_hands hg h3) hc m hm ha
      rw [hU] at hU'; cases hU'
      have hR : R.get_inner = q := by
        rw [position_make_move] at g1
        have e' : Q.inner.make_move m = .ok (q, some ()) := e'
        rw [e'] at g1
        cases g1; rfl
      exact ⟨R, .step h1 hm e2, g2, hR ▸ hq⟩

/-- C87: what the checked `make_move` does in the course of a game. -/
theorem C87_make_move (p : PartialPosition) (hp : startpos = .ok p) (Q : Position) (h : referee.Checked p Q)
    (m : Move) (hm : m.Valid) :
    ∃ past T R v, Shogi.start.Refereed past (Q.get_moves.map Move.action) T ∧ Q.get_inner.Shows T ∧
      referee.make_move Q m = .ok (R, v) ∧ (v = .ok () ↔ T.Legal m.action ∧ ¬T.Fourth past) ∧
      (v = .error .GameFinished ↔ T.Mated ∨ T.Fourth past) ∧
      (∀ e, e ≠ .GameFinished → (v = .error e ↔ T.Wrong m.action e ∧ ¬T.Fourth past)) ∧
      (v = .ok () → R.get_moves = Q.get_moves ++ [m] ∧ R.initial_position = Q.initial_position) ∧ (v ≠ .ok () → R = Q) := by
  obtain ⟨past, T, h1, h2, h3⟩ := C87_checked p hp Q h
  suffices hs : ∃ past T R v, Shogi.start.Refereed past (Q.get_moves.map Move.action) T ∧ Q.get_inner.Shows T ∧
      referee.make_move Q m = .ok (R, v) ∧ (v = .ok () ↔ T.Legal m.action ∧ ¬T.Fourth past) ∧
      (v = .error .GameFinished ↔ T.Mated ∨ T.Fourth past) ∧
      ∀ e, e ≠ .GameFinished → (v = .error e ↔ T.Wrong m.action e ∧ ¬T.Fourth past) by
    obtain ⟨past, T, R, v, a, b, e, g1, g2, g3⟩ := hs
    have c := C43_make_move referee C87_checker.2.2.2.1 Q (game_reach h3) m hm
    refine ⟨past, T, R, v, a, b, e, g1, g2, g3, ?_, ?_⟩
    · rintro rfl
      exact (c.2.1 R e).2
    · intro hv
      cases v with
      | ok u => exact absurd rfl hv
      | error x => exact (c.2.2.2 R x e).1
  obtain ⟨-, -, hL, hH, -⟩ := C87_checker
  have hr : ApiReach p := .startpos hp
  have hc := refereed_sound h1
  obtain ⟨v, ev, _, h4⟩ := C87_status p hp _ Q (C43_all_legal _ hH p hr Q h).1
  obtain ⟨-, h4, -⟩ := h4 past T h1
  obtain ⟨x, ex, h5, h6⟩ := C86_explain _ (game_reach h3) T h2 m hm
  have hg := h6 .GameFinished
  have hen : T.Ended ↔ T.Mated := ⟨fun h => h.elim (fun h => absurd h hc) id, .inr⟩
  by_cases hi : v = .InProgress
  · subst hi
    obtain ⟨n1, n2⟩ := h4.1 rfl
    have hn : ¬T.Ended := mt hen.1 n1
    obtain ⟨R, hR⟩ : ∃ R, referee.make_move Q m = .ok (R, x) := by
      have c := C43_make_move referee hH Q (game_reach h3) m hm
      rw [is_legal_progress ev, ex] at c
      cases x with
      | ok u => exact c.1.1 rfl
      | error e => exact ⟨Q, c.2.2.1 e rfl⟩
    refine ⟨past, T, R, x, h1, h2, hR, ?_, ?_, fun e _ => ?_⟩
    · rw [h5]; simp [hn, n2]
    · rw [hg]; simp only [Shogi.Wrong, hen, n1, n2, or_self]
    · rw [h6]; simp [n2]
  · have hf : T.Mated ∨ T.Fourth past := by
      apply Classical.byContradiction
      intro h
      exact hi (h4.2 ⟨fun a => h (.inl a), fun a => h (.inr a)⟩)
    refine ⟨past, T, Q, .error .GameFinished, h1, h2, ?_, ?_, ?_, fun e he => ?_⟩
    · simp only [LegalityChecker.make_move, LegalityChecker.is_legal, ev, Res.bind_ok, if_pos hi]; rfl
    · refine ⟨nofun, fun ⟨a, b⟩ => ?_⟩
      rcases hf with h | h
      · exact absurd a.1 (h.2 _ (Shogi.shaped_mem a.1.1))
      · exact absurd h b
    · simp [hf]
    · refine ⟨fun h => absurd (Except.error.inj h).symm he, fun ⟨a, b⟩ => ?_⟩
      rcases hf with h | h
      · exact absurd (Shogi.wrong_unique a (e' := .GameFinished) (.inr h)) he
      · exact absurd h b

/-! ### Games end -/

namespace Shogi

omit P in
theorem refereed_length {S T : Shogi} {past l} (h : S.Refereed past l T) : past.length = l.length := by
  induction h with
  | start => rfl
  | next _ _ _ _ _ ih => simp [ih]

omit P in
private theorem same_count {S T : Shogi} (h : S.Same T) (past : List Shogi) :
    past.filter (fun V => decide (S.Same V)) = past.filter fun V => decide (T.Same V) := by
  refine List.filter_congr fun V _ => ?_
  rw [decide_eq_decide, same_alike, same_alike]
  have h := same_alike.1 h
  constructor
  · intro h'
    exact ⟨fun f r i => (h.board f r i).symm.trans (h'.board f r i), fun c k hk => (h.hand c k hk).symm.trans (h'.hand c k hk),
      h.side.symm.trans h'.side⟩
  · intro h'
    exact ⟨fun f r i => (h.board f r i).trans (h'.board f r i), fun c k hk => (h.hand c k hk).trans (h'.hand c k hk),
      h.side.trans h'.side⟩

omit P in
theorem refereed_thrice {S T : Shogi} {past l} (h : S.Refereed past l T) (U : Shogi) :
    (past.filter fun V => decide (U.Same V)).length ≤ 3 := by
  induction h with
  | start => simp
  | @next past l T a V _ _ n _ _ ih =>
    by_cases hs : U.Same T
    · rw [List.filter_cons_of_pos (by simpa using hs), List.length_cons, same_count hs]
      unfold Fourth at n
      omega
    · rw [List.filter_cons_of_neg (by simpa using hs)]; exact ih

omit P in
theorem refereed_mem {S T : Shogi} {past l} (h : S.Refereed past l T) : ∀ U ∈ past, ∃ past' k rest, l = k ++ rest ∧
    S.Refereed past' k U := by
  induction h with
  | start => simp
  | @next past l T a V h _ _ _ _ ih =>
    intro U hU
    rcases List.mem_cons.1 hU with rfl | hU
    · exact ⟨past, l, [a], rfl, h⟩
    · obtain ⟨past', k, rest, e, h'⟩ := ih U hU
      exact ⟨past', k, rest ++ [a], by simp [e], h'⟩

/-- What can be on a square, as a number. -/
def cellCode : Option (PieceKind × Color) → Nat
  | none => 0
  | some (k, .Black) => 1 + k.toU8.toNat
  | some (k, .White) => 101 + k.toU8.toNat

omit P in
private theorem cellCode_inj {x y : Option (PieceKind × Color)} (h : cellCode x = cellCode y) : x = y := by
  have t : ∀ k k' : PieceKind, ∀ c c' : Color, cellCode (some (k, c)) = cellCode (some (k', c')) → k = k' ∧ c = c' := by
    intro k k' c c'; cases c <;> cases c' <;> revert k k' <;> decide
  have u : ∀ k : PieceKind, ∀ c : Color, cellCode (some (k, c)) ≠ 0 := by
    intro k c; cases c <;> revert k <;> decide
  rcases x with _ | ⟨k, c⟩ <;> rcases y with _ | ⟨k', c'⟩
  · rfl
  · exact absurd h.symm (u k' c')
  · exact absurd h (u k c)
  · obtain ⟨rfl, rfl⟩ := t k k' c c' h; rfl

omit P in
private theorem cellCode_lt (x : Option (PieceKind × Color)) : cellCode x < 256 := by
  rcases x with _ | ⟨k, c⟩
  · decide
  · cases c <;> revert k <;> decide

/-- The kinds of pieces in hand. -/
def handKinds : List PieceKind := [.Pawn, .Lance, .Knight, .Silver, .Gold, .Bishop, .Rook]

/-- A position as a list of numbers. -/
def digits (S : Shogi) : List Nat :=
  squares.map (fun s => cellCode (S.board s.1 s.2)) ++ (handKinds.map (S.hand .Black) ++
    (handKinds.map (S.hand .White) ++ [match S.side with | .Black => 0 | .White => 1]))

omit P in
private theorem squares_length : squares.length = 81 := by decide

omit P in
private theorem digits_length (S : Shogi) : S.digits.length = 96 := by
  simp [digits, squares_length, handKinds]

omit P in
private theorem digits_same {S T : Shogi} : S.digits = T.digits ↔ S.Same T := by
  constructor
  · intro h
    obtain ⟨h1, h⟩ := List.append_inj h (by simp)
    obtain ⟨h2, h⟩ := List.append_inj h (by simp)
    obtain ⟨h3, h⟩ := List.append_inj h (by simp)
    rw [List.map_inj_left] at h1 h2 h3
    refine ⟨fun s hs => cellCode_inj (h1 s hs), fun c _ k hk => ?_, ?_⟩
    · cases c
      · exact h2 k hk
      · exact h3 k hk
    · revert h
      cases S.side <;> cases T.side <;> simp
  · rintro ⟨h1, h2, h3⟩
    simp only [digits, handKinds]
    rw [List.map_congr_left fun s hs => congrArg cellCode (h1 s hs),
      List.map_congr_left (h2 .Black (by simp)), List.map_congr_left (h2 .White (by simp)), h3]

/-- A list of numbers as one number. -/
def number : List Nat → Nat
  | [] => 0
  | d :: l => d + 256 * number l

omit P in
private theorem number_inj : ∀ l l' : List Nat, l.length = l'.length → (∀ d ∈ l, d < 256) → (∀ d ∈ l', d < 256) →
    number l = number l' → l = l'
  | [], [], _, _, _, _ => rfl
  | [], _ :: _, h, _, _, _ => by simp at h
  | _ :: _, [], h, _, _, _ => by simp at h
  | d :: l, d' :: l', h, h1, h2, e => by
    have a := h1 d (by simp)
    have b := h2 d' (by simp)
    simp only [number] at e
    rw [number_inj l l' (by simpa using h) (fun d hd => h1 d (by simp [hd])) (fun d hd => h2 d (by simp [hd])) (by omega),
      show d = d' by omega]

omit P in
private theorem number_lt : ∀ l : List Nat, (∀ d ∈ l, d < 256) → number l < 256 ^ l.length
  | [], _ => by simp [number]
  | d :: l, h => by
    have a := h d (by simp)
    have b := number_lt l fun d hd => h d (by simp [hd])
    rw [number, List.length_cons, Nat.pow_succ]
    omega

omit P in
private theorem pigeonhole : ∀ (N : Nat) (l : List Nat), (∀ x ∈ l, x < N) → (∀ x, l.count x ≤ 3) → l.length ≤ 3 * N
  | 0, l, h, _ => by
    cases l with
    | nil => simp
    | cons x _ => exact absurd (h x (by simp)) (by omega)
  | N + 1, l, h, hc => by
    have a := pigeonhole N (l.filter fun x => !(x == N)) (fun x hx => by
        obtain ⟨h1, h2⟩ := List.mem_filter.1 hx
        have := h x h1
        have : x ≠ N := by simpa using h2
        omega) fun x => Nat.le_trans (List.filter_sublist.count_le x) (hc x)
    have b := hc N
    have c := List.length_eq_countP_add_countP (fun x => x == N) (l := l)
    rw [← List.countP_eq_length_filter] at a
    rw [List.count] at b
    have d : l.countP (fun x => decide ¬(x == N) = true) = l.countP fun x => !(x == N) := by
      congr 1; funext x; cases x == N <;> rfl
    omega

omit P in
theorem refereed_bound {S T : Shogi} {past l} (h : S.Refereed past l T)
    (hb : ∀ U ∈ past, ∀ c, ∀ k ∈ handKinds, U.hand c k < 256) : l.length ≤ 3 * 256 ^ 96 := by
  have hd : ∀ U ∈ past, ∀ d ∈ U.digits, d < 256 := by
    intro U hU d hd
    simp only [digits, List.mem_append, List.mem_map, List.mem_singleton] at hd
    rcases hd with ⟨s, _, rfl⟩ | ⟨k, hk, rfl⟩ | ⟨k, hk, rfl⟩ | rfl
    · exact cellCode_lt _
    · exact hb U hU _ k hk
    · exact hb U hU _ k hk
    · cases U.side <;> simp
  have a := pigeonhole (256 ^ 96) (past.map fun U => number U.digits) (fun x hx => by
    obtain ⟨U, hU, rfl⟩ := List.mem_map.1 hx
    have := number_lt _ (hd U hU)
    rwa [digits_length] at this) fun x => by
    by_cases hx : ∃ U ∈ past, number U.digits = x
    · obtain ⟨U, hU, rfl⟩ := hx
      rw [List.count, List.countP_map, List.countP_eq_length_filter]
      refine Nat.le_trans (Nat.le_of_eq (congrArg List.length (List.filter_congr fun V hV => ?_))) (refereed_thrice h U)
      rw [Bool.eq_iff_iff]
      simp only [Function.comp, beq_iff_eq, decide_eq_true_iff]
      constructor
      · intro e
        exact digits_same.1 (number_inj _ _ (by simp only [digits_length]) (hd V hV) (hd U hU) e).symm
      · intro e
        rw [digits_same.2 e]
    · rw [List.count_eq_zero.2 fun h => hx (List.mem_map.1 h)]
      omega
  rwa [List.length_map, refereed_length h] at a

end Shogi

/-- C87: no game with the client goes on for ever. -/
theorem C87_ends (p : PartialPosition) (hp : startpos = .ok p) (Q : Position) (h : referee.Checked p Q) :
    Q.get_moves.length ≤ 3 * 256 ^ 96 := by
  obtain ⟨past, T, h1, _, _⟩ := C87_checked p hp Q h
  have hv : ∀ m ∈ Q.get_moves, m.Valid :=
    (C33_replay p (.startpos hp) _ Q (C43_all_legal _ C87_checker.2.2.2.1 p (.startpos hp) Q h).1).2.2.2.1
  rw [← List.length_map (f := Move.action)]
  refine Shogi.refereed_bound h1 fun U hU c k hk => ?_
  obtain ⟨past', l, rest, e, hr⟩ := Shogi.refereed_mem h1 U hU
  obtain ⟨l1, l2, e', rfl, -⟩ := List.map_eq_append_iff.1 e
  obtain ⟨R, _, _, hR⟩ := C87_playable p hp l1 (fun m hm => hv m (by rw [e']; simp [hm])) past' U hr
  obtain ⟨n, _, hn⟩ := hR.hand c k (by revert k; decide)
  rw [← hn]
  exact n.isLt

/-! ### Examples -/

namespace Shogi

/-- Playing a list of moves. -/
private def referees : List Shogi → Shogi → List Action → Option (List Shogi × Shogi)
  | past, T, [] => some (past, T)
  | _, _, .drop .. :: _ => none
  | past, T, .move f r f' r' b :: rest =>
    if ¬T.InCheck T.side ∧ ¬T.Fourth past ∧ T.Safe (.move f r f' r' b) then
      (T.step (.move f r f' r' b)).bind fun U => referees (T :: past) U rest
    else none

omit P in
private theorem referees_ok {S : Shogi} (rest : List Action) : ∀ past k T past' U, S.Refereed past k T →
    referees past T rest = some (past', U) → S.Refereed past' (k ++ rest) U := by
  induction rest with
  | nil => intro past k T past' U h e; cases e; simpa using h
  | cons a rest ih =>
    intro past k T past' U h e
    cases a with
    | drop => cases e
    | move f r f' r' b =>
      rw [referees] at e
      split at e
      · next hc =>
        obtain ⟨V, h1, h2⟩ := Option.bind_eq_some_iff.1 e
        have := ih _ _ V past' U (.next h (fun hm => hc.1 hm.1) hc.2.1 ⟨hc.2.2, fun _ _ _ h => by cases h⟩ h1) h2
        simpa using this
      · cases e

end Shogi

set_option maxRecDepth 100000 in
/-- The rooks go to and fro three times: the game is drawn, and nothing more can be played. -/
example : ∃ p Q, startpos = .ok p ∧ referee.Checked p Q ∧ Q.get_moves = shuffle ++ shuffle ++ shuffle ∧
    referee.status Q = .ok .Draw ∧
    referee.make_move Q (.Normal (Square.at 7 7) (Square.at 7 6) false) = .ok (Q, .error .GameFinished) := by
  have t : ((Shogi.referees [] .start ((shuffle ++ shuffle ++ shuffle).map Move.action)).map fun x =>
      decide (x.2.Fourth x.1)) = some true := by decide +kernel
  obtain ⟨⟨past, T⟩, h1, h2⟩ := Option.map_eq_some_iff.1 t
  have hf : T.Fourth past := of_decide_eq_true h2
  have hr := Shogi.referees_ok _ _ _ _ _ _ .start h1
  have hp : startpos = .ok sp0 := startpos_ok
  obtain ⟨Q, hQ, hm, hT⟩ := C87_playable sp0 hp _ (by decide) past T hr
  refine ⟨sp0, Q, hp, hQ, hm, ?_, ?_⟩
  · obtain ⟨v, e, _, h⟩ := C87_status sp0 hp _ Q (C43_all_legal _ C87_checker.2.2.2.1 _ (.startpos hp) Q hQ).1
    rw [e, (h past T (by rw [hm]; exact hr)).2.2.1.2 hf]
  · obtain ⟨past', T', R, v, h1, _, e, _, h2, -, -, hR⟩ := C87_make_move sp0 hp Q hQ (.Normal (Square.at 7 7) (Square.at 7 6) false) (by decide)
    rw [hm] at h1
    obtain ⟨rfl, rfl⟩ := Shogi.refereed_unique hr h1
    have := h2.2 (.inr hf)
    subst this
    rw [e, hR nofun]

set_option maxRecDepth 100000 in
/-- A record with a rook that jumps over a pawn and takes another is not one of a game, although `make_move` goes along. -/
example : ∃ p Q, startpos = .ok p ∧ Position.From p [.Normal (Square.at 2 8) (Square.at 2 3) true] Q ∧
    referee.status Q = .ok .Invalid := by
  have hp : startpos = .ok sp0 := startpos_ok
  have hS := shows_start hp
  have hm : Move.Valid (.Normal (Square.at 2 8) (Square.at 2 3) true) := by decide
  obtain ⟨q, e⟩ := (C28_accept_iff _ (.startpos hp) _ hm).1.1 ((acceptable_step hS hm).2 (by decide +kernel))
  have e' : (Position.arbitrary_position sp0).make_move (.Normal (Square.at 2 8) (Square.at 2 3) true) =
      .ok (⟨sp0, q, [.Normal (Square.at 2 8) (Square.at 2 3) true]⟩, some ()) := by
    rw [position_make_move]
    have e : (Position.arbitrary_position sp0).inner.make_move (.Normal (Square.at 2 8) (Square.at 2 3) true) = .ok (q, some ()) := e
    rw [e]; rfl
  have hQ := Position.From.make_move .start hm e'
  refine ⟨sp0, _, hp, hQ, ?_⟩
  obtain ⟨v, e, h, _⟩ := C87_status sp0 hp _ _ hQ
  rw [e]
  congr 1
  apply Classical.byContradiction
  intro hn
  obtain ⟨past, T, hr⟩ := h.1 hn
  obtain ⟨_, S, _, h1, _, _, h2, _⟩ := Shogi.refereed_prefix hr [] _ [] rfl
  obtain ⟨_, rfl⟩ := Shogi.refereed_unique h1 .start
  exact absurd h2.1.1 (by decide +kernel)

end ShogiCore
