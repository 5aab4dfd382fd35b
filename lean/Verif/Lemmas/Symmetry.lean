import Verif.Spec.Symmetry
import Verif.Lemmas.Rules

/- The rules of shogi look the same from every point of view (no code involved). -/

namespace ShogiCore

namespace View
variable (v : View)

theorem file_file {f : Nat} (h : f ≤ 10) : v.file (v.file f) = f := by unfold file; split <;> omega
theorem rank_rank {r : Nat} (h : r ≤ 10) : v.rank (v.rank r) = r := by unfold rank; split <;> omega
theorem color_color (c : Color) : v.color (v.color c) = c := by
  unfold color; cases v.ranks <;> cases c <;> rfl
theorem color_other (c : Color) : v.color c.other = (v.color c).other := by
  unfold color; cases v.ranks <;> rfl
theorem color_inj {c d : Color} : v.color c = v.color d ↔ c = d := by
  unfold color; cases v.ranks <;> cases c <;> cases d <;> decide
theorem file_inj {f f' : Nat} (h : 1 ≤ f ∧ f ≤ 9) (h' : 1 ≤ f' ∧ f' ≤ 9) : v.file f = v.file f' ↔ f = f' := by
  unfold file; split <;> omega
theorem rank_inj {f f' : Nat} (h : 1 ≤ f ∧ f ≤ 9) (h' : 1 ≤ f' ∧ f' ≤ 9) : v.rank f = v.rank f' ↔ f = f' := by
  unfold rank; split <;> omega

theorem inside {f r : Nat} : Inside (v.file f) (v.rank r) ↔ Inside f r := by
  unfold Inside file rank; cases v.files <;> cases v.ranks <;> simp <;> omega

theorem rankOf {r : Nat} (h : 1 ≤ r ∧ r ≤ 9) (c : Color) : (v.color c).rankOf (v.rank r) = c.rankOf r := by
  unfold color rank; cases v.ranks <;> cases c <;> simp [Color.rankOf, Color.other] <;> omega

theorem stuck {r : Nat} (h : 1 ≤ r ∧ r ≤ 9) (c : Color) (k : PieceKind) :
    k.Stuck (v.color c) (v.rank r) ↔ k.Stuck c r := by
  unfold PieceKind.Stuck; rw [v.rankOf h]

/-- A direction, for a player who looks at it from `v`. -/
def dir (d : Int × Int) : Int × Int := if v.files = v.ranks then d else (-d.1, d.2)

theorem dir_steps {k : PieceKind} {d : Int × Int} (h : d ∈ k.steps) : v.dir d ∈ k.steps := by
  unfold dir; split
  · exact h
  · have : ∀ d ∈ k.steps, (-d.1, d.2) ∈ k.steps := by cases k <;> decide
    exact this d h

theorem dir_slides {k : PieceKind} {d : Int × Int} (h : d ∈ k.slides) : v.dir d ∈ k.slides := by
  unfold dir; split
  · exact h
  · have : ∀ d ∈ k.slides, (-d.1, d.2) ∈ k.slides := by cases k <;> decide
    exact this d h

theorem leads {c d n f r f' r'} (i : Inside f r) (i' : Inside f' r') (h : Shogi.Leads c d n f r f' r') :
    Shogi.Leads (v.color c) (v.dir d) n (v.file f) (v.rank r) (v.file f') (v.rank r') := by
  obtain ⟨h1, h2⟩ := h
  obtain ⟨⟨_, _⟩, _, _⟩ := i
  obtain ⟨⟨_, _⟩, _, _⟩ := i'
  unfold Shogi.Leads color dir file rank
  have e1 : (n : Int) * -d.1 = -(n * d.1) := Int.mul_neg _ _
  cases v.files <;> cases v.ranks <;> cases c <;> simp [Color.facing, Color.other, e1] at h1 h2 ⊢ <;> omega

/-- The squares of the action are on the board. -/
def _root_.ShogiCore.Action.OnBoard : Action → Prop
  | .move f r f' r' _ => Inside f r ∧ Inside f' r'
  | .drop _ _ f r => Inside f r

theorem onBoard {a : Action} : (v.action a).OnBoard ↔ a.OnBoard := by
  cases a <;> simp only [action, Action.OnBoard, inside]

theorem action_action {a : Action} (h : a.OnBoard) : v.action (v.action a) = a := by
  cases a with
  | move f r f' r' pr =>
    obtain ⟨⟨h1, h2⟩, h3, h4⟩ := h
    simp only [action]
    rw [v.file_file (by omega), v.file_file (by omega), v.rank_rank (by omega), v.rank_rank (by omega)]
  | drop k c f r =>
    obtain ⟨h1, h2⟩ := h
    simp only [action]
    rw [v.file_file (by omega), v.rank_rank (by omega), color_color]

end View

namespace Shogi
variable {v : View} {S S' : Shogi}

theorem Shaped.onBoard {a : Action} (h : S.Shaped a) : a.OnBoard := by
  cases a with
  | move => exact ⟨h.1, h.2.1⟩
  | drop => exact h.1

theorem Seen.symm (h : Seen v S S') : Seen v S' S := by
  refine ⟨fun f r i => ?_, fun c k hk => ?_, by rw [h.side, v.color_color]⟩
  · have := h.board (v.file f) (v.rank r) (v.inside.2 i)
    obtain ⟨⟨_, _⟩, _, _⟩ := i
    rw [v.file_file (by omega), v.rank_rank (by omega)] at this
    rw [this]
    cases S.board (v.file f) (v.rank r) with
    | none => rfl
    | some x => simp [v.color_color]
  · have := h.hand (v.color c) k hk
    rw [v.color_color] at this; exact this.symm

theorem Seen.none_at (h : Seen v S S') {f r} (i : Inside f r) :
    S'.board (v.file f) (v.rank r) = none ↔ S.board f r = none := by
  rw [h.board f r i]; simp

theorem Seen.some_at (h : Seen v S S') {f r} (i : Inside f r) {k c} :
    S'.board (v.file f) (v.rank r) = some (k, v.color c) ↔ S.board f r = some (k, c) := by
  rw [h.board f r i]
  cases S.board f r with
  | none => simp
  | some x => obtain ⟨l, d⟩ := x; simp [v.color_inj]

theorem reaches_seen (h : Seen v S S') {k c f r f' r'} (i : Inside f r) (i' : Inside f' r')
    (hr : S.Reaches k c f r f' r') :
    S'.Reaches k (v.color c) (v.file f) (v.rank r) (v.file f') (v.rank r') := by
  rcases hr with ⟨d, hd, hl⟩ | ⟨d, hd, n, hn, hl, he⟩
  · exact .inl ⟨_, v.dir_steps hd, v.leads i i' hl⟩
  · refine .inr ⟨_, v.dir_slides hd, n, hn, v.leads i i' hl, fun j hj => ?_⟩
    have hj' := List.mem_range.1 hj
    have := he j hj
    unfold EmptyAt at this ⊢
    obtain ⟨f1, r1, i1, h1⟩ : ∃ f1 r1, Inside f1 r1 ∧ Leads c d (j + 1) f r f1 r1 := by
      refine ⟨((f : Int) + c.facing * ((j + 1 : Nat) * d.1)).toNat, ((r : Int) + c.facing * ((j + 1 : Nat) * d.2)).toNat, ?_, ?_⟩
      all_goals
        obtain ⟨h1, h2⟩ := hl
        simp only [Inside, Leads] at i i' ⊢
        clear this he hj hn
        cases k <;> simp only [PieceKind.slides, List.mem_cons, List.not_mem_nil, or_false] at hd <;>
          rcases hd with rfl | rfl | rfl | rfl <;> cases c <;> simp only [Color.facing] at h1 h2 ⊢ <;> omega
    obtain ⟨a1, a2⟩ := v.leads i i1 h1
    rw [← a1, ← a2, Int.toNat_natCast, Int.toNat_natCast, h.none_at i1]
    rw [← h1.1, ← h1.2, Int.toNat_natCast, Int.toNat_natCast] at this
    exact this

theorem attacked_seen (h : Seen v S S') {c f r} (i : Inside f r) (ha : S.Attacked c f r) :
    S'.Attacked (v.color c) (v.file f) (v.rank r) := by
  obtain ⟨⟨f0, r0⟩, hs, ⟨k, c'⟩, hx, rfl, hr⟩ := ha
  have is := mem_squares.1 hs
  exact ⟨(v.file f0, v.rank r0), mem_squares.2 (v.inside.2 is), (k, v.color c'), (h.some_at is).2 hx, rfl,
    reaches_seen h is i hr⟩

theorem inCheck_seen (h : Seen v S S') {c} (hc : S.InCheck c) : S'.InCheck (v.color c) := by
  obtain ⟨⟨f, r⟩, hs, e, ha⟩ := hc
  have is := mem_squares.1 hs
  exact ⟨(v.file f, v.rank r), mem_squares.2 (v.inside.2 is), (h.some_at is).2 e, by
    rw [← v.color_other]; exact attacked_seen h is ha⟩

theorem inCheck_seen_iff (h : Seen v S S') {c} : S'.InCheck (v.color c) ↔ S.InCheck c :=
  ⟨fun hc => by have := inCheck_seen h.symm hc; rwa [v.color_color] at this, inCheck_seen h⟩

theorem free_seen (h : Seen v S S') {f r} (i : Inside f r) (hy : ∀ y ∈ S.board f r, y.2 ≠ S.side) :
    ∀ y ∈ S'.board (v.file f) (v.rank r), y.2 ≠ S'.side := by
  intro y hy'
  rw [h.board f r i] at hy'
  cases e : S.board f r with
  | none => rw [e] at hy'; cases hy'
  | some x =>
    rw [e] at hy'; cases hy'
    rw [h.side, ne_eq, v.color_inj]
    exact hy x e

theorem shaped_seen (h : Seen v S S') {a} (ha : S.Shaped a) : S'.Shaped (v.action a) := by
  cases a with
  | move f r f' r' pr =>
    obtain ⟨i, i', ⟨k, c⟩, hx, e, h1, h2, h3, h4⟩ := ha
    subst e
    refine ⟨v.inside.2 i, v.inside.2 i', (k, v.color S.side), (h.some_at i).2 hx, h.side.symm, free_seen h i' h1,
      reaches_seen h i i' h2, fun e => ?_, fun e => ?_⟩
    · rw [h.side, v.rankOf i.2, v.rankOf i'.2]; exact h3 e
    · rw [h.side, v.stuck i'.2]; exact h4 e
  | drop k c f r =>
    obtain ⟨i, e, hk, h1, h2, h3, h4⟩ := ha
    refine ⟨v.inside.2 i, by rw [h.side, e], hk, by rw [h.hand _ _ hk]; exact h1, (h.none_at i).2 h2,
      fun hs => h3 ((v.stuck i.2 _ _).1 hs), fun e j hj hb => ?_⟩
    have := List.mem_range.1 hj
    have i1 : Inside f (v.rank (j + 1)) := ⟨i.1, by unfold View.rank; split <;> omega⟩
    have e1 : v.rank (v.rank (j + 1)) = j + 1 := v.rank_rank (by omega)
    rw [← e1, h.some_at i1] at hb
    obtain ⟨⟨_, _⟩, _, _⟩ := i1
    refine h4 e (v.rank (j + 1) - 1) (List.mem_range.2 (by omega)) ?_
    rwa [Nat.sub_add_cancel (by omega)]

theorem shaped_seen_iff (h : Seen v S S') {a} : S'.Shaped (v.action a) ↔ S.Shaped a :=
  ⟨fun ha => by
    have := shaped_seen h.symm ha
    rwa [v.action_action (v.onBoard.1 ha.onBoard)] at this, shaped_seen h⟩

theorem after_seen (h : Seen v S S') {a : Action} (ha : a.OnBoard) : Seen v (S.after a) (S'.after (v.action a)) := by
  have hp : (S'.after (v.action a)).side = v.color (S.after a).side := by
    cases a <;> simp only [View.action, after, pass, put, h.side, v.color_other]
  refine ⟨fun f0 r0 i0 => ?_, ?_, hp⟩
  · cases a with
    | move f r f' r' pr =>
      obtain ⟨i, i'⟩ := ha
      simp only [View.action, after, pass, put, h.board _ _ i0, h.board _ _ i, v.file_inj i0.1 i.1, v.file_inj i0.1 i'.1,
        v.rank_inj i0.2 i.2, v.rank_inj i0.2 i'.2]
      split
      · cases S.board f r <;> simp
      · split <;> rfl
    | drop k c f r =>
      simp only [View.action, after, pass, put, h.board _ _ i0, v.file_inj i0.1 ha.1, v.rank_inj i0.2 ha.2]
      split <;> rfl
  · cases a <;> exact h.hand

theorem safe_seen (h : Seen v S S') {a} (ha : S.Safe a) : S'.Safe (v.action a) :=
  ⟨shaped_seen h ha.1, fun hc => ha.2 (by
    rw [h.side, inCheck_seen_iff (after_seen h ha.1.onBoard)] at hc; exact hc)⟩

theorem mated_seen (h : Seen v S S') (hm : S.Mated) : S'.Mated := by
  rw [mated_iff] at hm ⊢
  refine ⟨by rw [h.side]; exact inCheck_seen h hm.1, fun a ha => hm.2 (v.action a) (safe_seen h.symm ha)⟩

theorem mated_seen_iff (h : Seen v S S') : S'.Mated ↔ S.Mated := ⟨mated_seen h.symm, mated_seen h⟩

theorem legal_seen (h : Seen v S S') {a} (ha : S.Legal a) : S'.Legal (v.action a) := by
  refine ⟨safe_seen h ha.1, fun c f r e hm => ?_⟩
  have hb := ha.1.1.onBoard
  cases a with
  | move => cases e
  | drop k c0 f0 r0 =>
    simp only [View.action, Action.drop.injEq] at e
    obtain ⟨rfl, -⟩ := e
    exact ha.2 _ _ _ rfl ((mated_seen_iff (after_seen h hb)).1 hm)

theorem legal_seen_iff (h : Seen v S S') {a} : S'.Legal (v.action a) ↔ S.Legal a :=
  ⟨fun ha => by
    have := legal_seen h.symm ha
    rwa [v.action_action (v.onBoard.1 ha.1.1.onBoard)] at this, legal_seen h⟩

theorem ended_seen_iff (h : Seen v S S') : S'.Ended ↔ S.Ended := by
  unfold Ended
  rw [h.side, ← v.color_other, inCheck_seen_iff h, mated_seen_iff h]

theorem droppable_seen (h : Seen v S S') {k f r} (hd : S.Droppable k f r) : S'.Droppable k (v.file f) (v.rank r) := by
  obtain ⟨i, hk, h1, h2⟩ := hd
  exact ⟨v.inside.2 i, hk, by rw [h.side, h.hand _ _ hk]; exact h1, (h.none_at i).2 h2⟩

theorem wrong_seen (h : Seen v S S') {a : Action} (hb : a.OnBoard) {e} (hw : S.Wrong a e) :
    S'.Wrong (v.action a) e := by
  cases e with
  | GameFinished => exact (ended_seen_iff h).2 hw
  | DropStuck =>
    obtain ⟨h0, k, f, r, rfl, hd, hs⟩ := hw
    refine ⟨fun x => h0 ((ended_seen_iff h).1 x), k, _, _, by rw [View.action, h.side], droppable_seen h hd, ?_⟩
    rw [h.side, v.stuck hd.1.2]; exact hs
  | TwoPawns =>
    obtain ⟨h0, f, r, rfl, hd, hs, r1, i1, h1⟩ := hw
    refine ⟨fun x => h0 ((ended_seen_iff h).1 x), _, _, by rw [View.action, h.side], droppable_seen h hd, ?_,
      v.rank r1, v.inside.2 i1, ?_⟩
    · rw [h.side, v.stuck hd.1.2]; exact hs
    · rw [h.side]; exact (h.some_at i1).2 h1
  | NormalStuck =>
    obtain ⟨h0, f, r, f', r', k, rfl, i, i', h1, h2, h3, h4⟩ := hw
    refine ⟨fun x => h0 ((ended_seen_iff h).1 x), _, _, _, _, k, rfl, v.inside.2 i, v.inside.2 i', ?_, free_seen h i' h2, ?_, ?_⟩
    · rw [h.side]; exact (h.some_at i).2 h1
    · rw [h.side]; exact reaches_seen h i i' h3
    · rw [h.side, v.stuck i'.2]; exact h4
  | IgnoredCheck =>
    obtain ⟨h0, h1, h2⟩ := hw
    exact ⟨fun x => h0 ((ended_seen_iff h).1 x), shaped_seen h h1, by
      rw [h.side]; exact inCheck_seen (after_seen h hb) h2⟩
  | DropPawnMate =>
    obtain ⟨h0, h1, c, f, r, rfl, h2⟩ := hw
    exact ⟨fun x => h0 ((ended_seen_iff h).1 x), safe_seen h h1, _, _, _, rfl, mated_seen (after_seen h hb) h2⟩
  | IncorrectMove =>
    obtain ⟨h0, h1, h2, h3⟩ := hw
    have back : ∀ b, v.action a = b → a = v.action b := by
      rintro _ rfl; exact (v.action_action hb).symm
    refine ⟨fun x => h0 ((ended_seen_iff h).1 x), fun x => h1 ((shaped_seen_iff h).1 x), fun k f r e hd => ?_,
      fun f r f' r' k e i i' e1 hy hr => ?_⟩
    · refine h2 k (v.file f) (v.rank r) ?_ (droppable_seen h.symm hd)
      rw [back _ e, View.action, h.side, v.color_color]
    · refine h3 _ _ _ _ k (back _ e) (v.inside.2 i) (v.inside.2 i') ?_ (free_seen h.symm i' hy) ?_
      · rw [h.symm.side]; exact (h.symm.some_at i).2 e1
      · rw [h.symm.side]; exact reaches_seen h.symm i i' hr

end Shogi
end ShogiCore
