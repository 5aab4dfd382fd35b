import Verif.Spec.Rules

/- Facts about the rules of shogi (no code involved). -/

namespace ShogiCore
namespace Shogi

theorem mem_squares {s : Nat × Nat} : s ∈ squares ↔ Inside s.1 s.2 := by
  obtain ⟨f, r⟩ := s
  simp only [squares, List.mem_flatMap, List.mem_map, List.mem_range, Prod.mk.injEq, Inside]
  constructor
  · rintro ⟨a, ha, b, hb, rfl, rfl⟩; omega
  · rintro ⟨h1, h2⟩
    exact ⟨f - 1, by omega, r - 1, by omega, by omega, by omega⟩

/-- The list of actions is complete. -/
theorem shaped_mem {S : Shogi} {a : Action} (h : S.Shaped a) : a ∈ actions := by
  cases a with
  | move f r f' r' pr =>
    obtain ⟨h1, h2, _⟩ := h
    refine List.mem_append.2 (.inl (List.mem_flatMap.2 ⟨(f, r), mem_squares.2 h1,
      List.mem_flatMap.2 ⟨(f', r'), mem_squares.2 h2, ?_⟩⟩))
    cases pr <;> simp
  | drop k c f r =>
    obtain ⟨h1, _, hk, _⟩ := h
    refine List.mem_append.2 (.inr (List.mem_flatMap.2 ⟨k, ?_, List.mem_flatMap.2 ⟨c, ?_,
      List.mem_map.2 ⟨(f, r), mem_squares.2 h1, rfl⟩⟩⟩))
    · cases k <;> first | exact absurd hk id | simp
    · cases c <;> simp

theorem mated_iff (S : Shogi) : S.Mated ↔ S.InCheck S.side ∧ ∀ a, ¬S.Safe a :=
  ⟨fun h => ⟨h.1, fun a ha => h.2 a (shaped_mem ha.1) ha⟩, fun h => ⟨h.1, fun a _ => h.2 a⟩⟩

/-! ### What cannot be seen does not matter -/

/-- The same where it can be seen, move numbers aside. -/
structure Alike (S T : Shogi) : Prop where
  board : ∀ f r, Inside f r → S.board f r = T.board f r
  hand : ∀ c k, k.InHand → S.hand c k = T.hand c k
  side : S.side = T.side

theorem Alike.symm {S T : Shogi} (h : S.Alike T) : T.Alike S :=
  ⟨fun f r i => (h.board f r i).symm, fun c k i => (h.hand c k i).symm, h.side.symm⟩

theorem reaches_alike {S T : Shogi} (h : S.Alike T) {k c f r f' r'} (i : Inside f r) (i' : Inside f' r')
    (hr : S.Reaches k c f r f' r') : T.Reaches k c f r f' r' := by
  rcases hr with hr | ⟨d, hd, n, hn, hl, he⟩
  · exact .inl hr
  · refine .inr ⟨d, hd, n, hn, hl, fun j hj => ?_⟩
    have hj' := List.mem_range.1 hj
    have := he j hj
    unfold EmptyAt at this ⊢
    rw [← h.board]
    · exact this
    · obtain ⟨h1, h2⟩ := hl
      simp only [Inside] at i i' ⊢
      clear this he hj hn
      cases k <;> simp only [PieceKind.slides, List.mem_cons, List.not_mem_nil, or_false] at hd <;>
        rcases hd with rfl | rfl | rfl | rfl <;> cases c <;> simp only [Color.facing] at h1 h2 ⊢ <;> omega

theorem attacked_alike {S T : Shogi} (h : S.Alike T) {c f r} (i : Inside f r) (ha : S.Attacked c f r) :
    T.Attacked c f r := by
  obtain ⟨s, hs, x, hx, e, hr⟩ := ha
  have is := mem_squares.1 hs
  exact ⟨s, hs, x, by rw [← h.board _ _ is]; exact hx, e, reaches_alike h is i hr⟩

theorem inCheck_alike {S T : Shogi} (h : S.Alike T) {c} (hc : S.InCheck c) : T.InCheck c := by
  obtain ⟨s, hs, e, ha⟩ := hc
  have is := mem_squares.1 hs
  exact ⟨s, hs, by rw [← h.board _ _ is]; exact e, attacked_alike h is ha⟩

theorem shaped_alike {S T : Shogi} (h : S.Alike T) {a} (ha : S.Shaped a) : T.Shaped a := by
  cases a with
  | move f r f' r' pr =>
    obtain ⟨i, i', x, hx, e, h1, h2, h3, h4⟩ := ha
    refine ⟨i, i', x, by rw [← h.board _ _ i]; exact hx, by rw [← h.side]; exact e, ?_,
      reaches_alike h i i' h2, by rw [← h.side]; exact h3, by rw [← h.side]; exact h4⟩
    rw [← h.board _ _ i', ← h.side]; exact h1
  | drop k c f r =>
    obtain ⟨i, e, hk, h1, h2, h3, h4⟩ := ha
    refine ⟨i, by rw [← h.side]; exact e, hk, by rw [← h.hand _ _ hk]; exact h1,
      by rw [← h.board _ _ i]; exact h2, h3, fun e j hj => ?_⟩
    have := List.mem_range.1 hj
    rw [← h.board _ _ ⟨i.1, by omega⟩]; exact h4 e j hj

theorem after_alike {S T : Shogi} (h : S.Alike T) {a} (ha : S.Shaped a) : (S.after a).Alike (T.after a) := by
  cases a with
  | move f r f' r' pr =>
    obtain ⟨i, _⟩ := ha
    refine ⟨fun a b hab => ?_, h.hand, congrArg Color.other h.side⟩
    simp only [after, pass, put, h.board _ _ i, h.board _ _ hab]
  | drop k c f r =>
    refine ⟨fun a b hab => ?_, h.hand, congrArg Color.other h.side⟩
    simp only [after, pass, put, h.board _ _ hab]

theorem safe_alike {S T : Shogi} (h : S.Alike T) {a} (ha : S.Safe a) : T.Safe a :=
  ⟨shaped_alike h ha.1, fun hc => ha.2 (by
    rw [h.side]; exact inCheck_alike (after_alike h ha.1).symm hc)⟩

theorem mated_alike {S T : Shogi} (h : S.Alike T) (hm : S.Mated) : T.Mated :=
  ⟨by rw [← h.side]; exact inCheck_alike h hm.1, fun a ha hs => hm.2 a ha (safe_alike h.symm hs)⟩

theorem legal_alike {S T : Shogi} (h : S.Alike T) {a} (ha : S.Legal a) : T.Legal a :=
  ⟨safe_alike h ha.1, fun c f r e hm => ha.2 c f r e (mated_alike (after_alike h ha.1.1).symm hm)⟩

/-! ### Steps -/

/-- A move of the right shape is possible on the machine unless it captures a king. -/
theorem shaped_step {S : Shogi} {a : Action} (h : S.Shaped a) :
    (S.step a).isSome ↔ ∀ f r f' r' pr, a = .move f r f' r' pr → ∀ c, S.board f' r' ≠ some (.King, c) := by
  cases a with
  | move f r f' r' pr =>
    obtain ⟨_, _, ⟨k, c⟩, hx, rfl, h1, _, h3, _⟩ := h
    have hx : S.board f r = some (k, S.side) := hx
    have harr : (arrival k pr).isSome := by
      unfold arrival; cases pr
      · simp
      · simpa using (h3 rfl).1
    obtain ⟨k', hk'⟩ := Option.isSome_iff_exists.1 harr
    simp only [step, hx, ne_eq, not_true_eq_false, if_false, hk']
    cases hy : S.board f' r' with
    | none => simp only [Option.isSome_some, true_iff]; intro _ _ _ _ _ e; cases e; simp [hy]
    | some y =>
      obtain ⟨l, d⟩ := y
      have hd := h1 _ hy
      simp only [ne_eq] at hd
      by_cases hl : l = .King
      · subst hl
        simp only [or_true, if_true, Option.isSome_none, Bool.false_eq_true, false_iff]
        exact fun hh => hh _ _ _ _ _ rfl d hy
      · simp only [hd, hl, or_self, if_false, Option.isSome_some, true_iff]
        intro _ _ _ _ _ e c; cases e
        rw [hy]; simp [hl]
  | drop k c f r =>
    obtain ⟨_, rfl, hk, h1, h2, _⟩ := h
    simp [step, hk, h1, h2]

/-- The board and the turn after a step are those of `after`. -/
theorem step_after {S T : Shogi} {a : Action} (h : S.step a = some T) :
    T.board = (S.after a).board ∧ T.side = S.side.other := by
  cases a with
  | move f r f' r' pr =>
    simp only [step] at h
    split at h
    · cases h
    · rename_i k c hx
      split at h
      · cases h
      · rename_i hc
        have hc : c = S.side := by simpa using hc
        subst hc
        split at h
        · cases h
        · rename_i k' hk
          split at h
          · cases h
            exact ⟨by simp [after, pass, put, hx, hk], rfl⟩
          · split at h
            · cases h
            · cases h
              exact ⟨by simp [after, pass, put, setHand, hx, hk], rfl⟩
  | drop k c f r =>
    simp only [step] at h
    split at h
    · cases h; exact ⟨by simp [after, pass, put, setHand], rfl⟩
    · cases h

theorem inCheck_board {S T : Shogi} (h : S.board = T.board) (c : Color) : S.InCheck c ↔ T.InCheck c := by
  simp only [InCheck, Attacked, Reaches, EmptyAt, h]

/-- After a safe move the player who made it is not in check. -/
theorem safe_step {S T : Shogi} {a : Action} (ha : S.Safe a) (h : S.step a = some T) :
    ¬T.InCheck T.side.other := by
  obtain ⟨h1, h2⟩ := step_after h
  rw [inCheck_board h1, h2]
  have : S.side.other.other = S.side := by cases S.side <;> rfl
  rw [this]; exact ha.2

/-- No move captures a king while its owner is not in check. -/
theorem shaped_no_capture {S : Shogi} (hS : ¬S.InCheck S.side.other) {a : Action} (ha : S.Shaped a) :
    ∀ f r f' r' pr, a = .move f r f' r' pr → ∀ c, S.board f' r' ≠ some (.King, c) := by
  rintro f r f' r' pr rfl c hc
  obtain ⟨i, i', ⟨k, d⟩, hx, rfl, h1, h2, _⟩ := ha
  have hne := h1 _ hc
  have hc' : c = S.side.other := by
    simp only [ne_eq] at hne
    cases c <;> cases hs : S.side <;> simp [hs, Color.other] at hne ⊢
  subst hc'
  refine hS ⟨(f', r'), mem_squares.2 i', hc, (f, r), mem_squares.2 i, _, hx, ?_, ?_⟩
  · cases S.side <;> rfl
  · have : S.side.other.other = S.side := by cases S.side <;> rfl
    rw [this]; exact h2

/-! ### What holds in all games -/

/-- No two unpromoted pawns of a colour on a file. -/
def NoTwoPawns (S : Shogi) : Prop :=
  ∀ c f r r', Inside f r → Inside f r' → S.board f r = some (.Pawn, c) → S.board f r' = some (.Pawn, c) → r = r'

/-- No piece that can never move again. -/
def NoStuck (S : Shogi) : Prop :=
  ∀ k c f r, Inside f r → S.board f r = some (k, c) → ¬k.Stuck c r

theorem arrival_pawn {k : PieceKind} {pr : Bool} (h : (arrival k pr).getD k = .Pawn) : k = .Pawn ∧ (pr = true → promotedKind k = none) := by
  cases k <;> cases pr <;> simp_all [arrival, promotedKind]

theorem promoted_not_stuck {k k' : PieceKind} (h : promotedKind k = some k') (c : Color) (r : Nat) :
    ¬k'.Stuck c r := by
  cases k <;> simp only [promotedKind, Option.some.injEq, reduceCtorEq] at h <;> subst h <;>
    simp [PieceKind.Stuck]

theorem noTwoPawns_step {S T : Shogi} {a : Action} (hS : S.NoTwoPawns) (ha : S.Shaped a)
    (h : S.step a = some T) : T.NoTwoPawns := by
  intro c f0 r1 r2 i1 i2 e1 e2
  obtain ⟨hb, _⟩ := step_after h
  rw [hb] at e1 e2
  cases a with
  | move f r f' r' pr =>
    obtain ⟨i, i', ⟨k, d⟩, hx, rfl, _, hr, h3, _⟩ := ha
    have hx : S.board f r = some (k, S.side) := hx
    simp only [after, pass, put, hx, Option.map_some] at e1 e2
    -- a pawn arriving comes from the same file
    have key : (some ((arrival k pr).getD k, S.side) = some (PieceKind.Pawn, c)) →
        f' = f ∧ S.board f r = some (.Pawn, c) := by
      intro e
      simp only [Option.some.injEq, Prod.mk.injEq] at e
      obtain ⟨hk, _⟩ := arrival_pawn e.1
      subst hk
      refine ⟨?_, by rw [hx, e.2]⟩
      rcases hr with ⟨d, hd, hl⟩ | ⟨d, hd, _⟩
      · simp only [PieceKind.steps, List.mem_singleton] at hd
        subst hd
        have := hl.1
        simp only [Int.mul_zero, Int.add_zero] at this
        omega
      · simp [PieceKind.slides] at hd
    have old : ∀ q, Inside f0 q → ¬(f0 = f' ∧ q = r') →
        (if f0 = f' ∧ q = r' then some ((arrival k pr).getD k, S.side)
          else if f0 = f ∧ q = r then none else S.board f0 q) = some (.Pawn, c) →
        S.board f0 q = some (.Pawn, c) ∧ ¬(f0 = f ∧ q = r) := by
      intro q _ hn e
      rw [if_neg hn] at e
      split at e
      · cases e
      · exact ⟨e, by assumption⟩
    by_cases a1 : f0 = f' ∧ r1 = r' <;> by_cases a2 : f0 = f' ∧ r2 = r'
    · rw [a1.2, a2.2]
    · rw [if_pos a1] at e1
      obtain ⟨g1, g2⟩ := key e1
      obtain ⟨o1, o2⟩ := old r2 i2 a2 e2
      exfalso; apply o2
      have hf : f0 = f := by rw [a1.1, g1]
      refine ⟨hf, hS c f0 r2 r i2 (by rw [hf]; exact i) o1 (by rw [hf]; exact g2)⟩
    · rw [if_pos a2] at e2
      obtain ⟨g1, g2⟩ := key e2
      obtain ⟨o1, o2⟩ := old r1 i1 a1 e1
      exfalso; apply o2
      have hf : f0 = f := by rw [a2.1, g1]
      refine ⟨hf, hS c f0 r1 r i1 (by rw [hf]; exact i) o1 (by rw [hf]; exact g2)⟩
    · exact hS c f0 r1 r2 i1 i2 (old r1 i1 a1 e1).1 (old r2 i2 a2 e2).1
  | drop k d f r =>
    obtain ⟨i, rfl, _, _, _, _, h4⟩ := ha
    simp only [after, pass, put] at e1 e2
    have none_on : ∀ q, Inside f q → k = .Pawn → S.board f q ≠ some (.Pawn, S.side) := by
      intro q hq hk
      have := h4 hk (q - 1) (List.mem_range.2 (by have := hq.2; omega))
      rwa [show q - 1 + 1 = q by have := hq.2; omega] at this
    by_cases a1 : f0 = f ∧ r1 = r <;> by_cases a2 : f0 = f ∧ r2 = r
    · rw [a1.2, a2.2]
    · rw [if_pos a1] at e1; rw [if_neg a2] at e2
      simp only [Option.some.injEq, Prod.mk.injEq] at e1
      obtain ⟨rfl, rfl⟩ := e1
      rw [a1.1] at e2 i2
      exact absurd e2 (none_on r2 i2 rfl)
    · rw [if_pos a2] at e2; rw [if_neg a1] at e1
      simp only [Option.some.injEq, Prod.mk.injEq] at e2
      obtain ⟨rfl, rfl⟩ := e2
      rw [a2.1] at e1 i1
      exact absurd e1 (none_on r1 i1 rfl)
    · rw [if_neg a1] at e1; rw [if_neg a2] at e2
      exact hS c f0 r1 r2 i1 i2 e1 e2

theorem noStuck_step {S T : Shogi} {a : Action} (hS : S.NoStuck) (ha : S.Shaped a)
    (h : S.step a = some T) : T.NoStuck := by
  intro k0 c f0 r0 i0 e
  obtain ⟨hb, _⟩ := step_after h
  rw [hb] at e
  cases a with
  | move f r f' r' pr =>
    obtain ⟨i, i', ⟨k, d⟩, hx, rfl, _, hr, h3, h4⟩ := ha
    have hx : S.board f r = some (k, S.side) := hx
    simp only [after, pass, put, hx, Option.map_some] at e
    split at e
    · rename_i hp
      simp only [Option.some.injEq, Prod.mk.injEq] at e
      obtain ⟨e, rfl⟩ := e
      rw [hp.2]
      cases pr with
      | false =>
        simp only [arrival, Bool.false_eq_true, if_false, Option.getD_some] at e
        subst e; exact h4 rfl
      | true =>
        obtain ⟨k', hk'⟩ := Option.isSome_iff_exists.1 (h3 rfl).1
        have hk' : promotedKind k = some k' := hk'
        simp only [arrival, if_true, hk', Option.getD_some] at e
        subst e; exact promoted_not_stuck hk' _ _
    · split at e
      · cases e
      · exact hS _ _ _ _ i0 e
  | drop k d f r =>
    obtain ⟨_, _, _, _, _, h3, _⟩ := ha
    simp only [after, pass, put] at e
    split at e
    · rename_i hp
      simp only [Option.some.injEq, Prod.mk.injEq] at e
      obtain ⟨rfl, rfl⟩ := e
      rw [hp.2]; exact h3
    · exact hS _ _ _ _ i0 e

/-- A game by the rules is a run of the machine in which every action is carried out. -/
theorem run_append (S : Shogi) (l : List Action) (a : Action) :
    S.run (l ++ [a]) = match (S.run l).1.step a with
      | none => ((S.run l).1, (S.run l).2 ++ [false])
      | some U => (U, (S.run l).2 ++ [true]) := by
  induction l generalizing S with
  | nil => simp only [List.nil_append, run]; cases S.step a <;> rfl
  | cons b l ih =>
    simp only [List.cons_append, run]
    cases S.step b with
    | none => simp only [ih]; cases (S.run l).1.step a <;> rfl
    | some S' => simp only [ih]; cases (S'.run l).1.step a <;> rfl

theorem byRules_run {S T : Shogi} {l : List Action} (h : S.ByRules l T) :
    S.run l = (T, l.map fun _ => true) := by
  induction h with
  | start => rfl
  | next _ _ e ih => rw [run_append, ih]; simp [e]

theorem byRules_invariants {S T : Shogi} {l : List Action} (h : S.ByRules l T)
    (h1 : S.NoTwoPawns) (h2 : S.NoStuck) (h3 : ¬S.InCheck S.side.other) :
    T.NoTwoPawns ∧ T.NoStuck ∧ ¬T.InCheck T.side.other := by
  induction h with
  | start => exact ⟨h1, h2, h3⟩
  | next _ ha e ih =>
    exact ⟨noTwoPawns_step ih.1 ha.1.1 e, noStuck_step ih.2.1 ha.1.1 e, safe_step ha.1 e⟩

set_option maxRecDepth 100000 in
theorem start_invariants : start.NoTwoPawns ∧ start.NoStuck ∧ ¬start.InCheck start.side.other := by
  refine ⟨?_, ?_, by decide +kernel⟩
  · have t : ∀ c : Color, ∀ f : Fin 10, ∀ r r' : Fin 10, start.board f r = some (.Pawn, c) →
        start.board f r' = some (.Pawn, c) → 1 ≤ r.val → 1 ≤ r'.val → r = r' := by
      intro c; cases c <;> decide +kernel
    intro c f r r' i i' e e'
    have := t c ⟨f, by have := i.1; omega⟩ ⟨r, by have := i.2; omega⟩ ⟨r', by have := i'.2; omega⟩ e e'
      i.2.1 i'.2.1
    simpa using this
  · have t : ∀ f : Fin 10, ∀ r : Fin 10, 1 ≤ r.val → ∀ x ∈ start.board f r, ¬x.1.Stuck x.2 r := by decide +kernel
    intro k c f r i e
    exact t ⟨f, by have := i.1; omega⟩ ⟨r, by have := i.2; omega⟩ i.2.1 _ e

end Shogi
end ShogiCore
