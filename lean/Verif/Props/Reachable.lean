import Verif.Props.Game
import Verif.Props.Order
import Verif.Spec.Setup

/- C62: which positions there are. -/

set_option linter.unusedSectionVars false

namespace ShogiCore
open PartialPosition

variable [P : Profile]

/-! ### The invariant -/

/-- What histories guarantee beyond `Ok`. -/
structure PartialPosition.Hist (p : PartialPosition) : Prop where
  last : ∀ c m, p.last_move.toOption = some c → m.Valid → c.encodes m → m.CanBeLast
  ply : p.ply = 0 → p.last_move.toOption ≠ none
  seen : ∀ c i, i < 81 → p.cell i = some (Piece.mk' .King c) → (p.kingOf c).toOption ≠ none
  swap : ∀ s t, (p.kingOf .Black).toOption = some s → (p.kingOf .White).toOption = some t →
    p.cell s.idx0 = some (Piece.mk' .King .White) → p.cell t.idx0 ≠ some (Piece.mk' .King .Black)

omit P in
theorem King_ne {c d : Color} (h : c ≠ d) : Piece.mk' .King c ≠ Piece.mk' .King d :=
  fun e => h (Piece.mk'_inj e).2

theorem hist_empty : PartialPosition.empty.Hist where
  last := by intro c m h; cases h
  ply := by intro h; cases h
  seen := by
    intro c i hi h
    have : ∀ i < 81, PartialPosition.empty.cell i = none := by decide +kernel
    rw [this i hi] at h; cases h
  swap := by intro s t h; cases h

private theorem sp0_facts : sp0.last_move.toOption = none ∧ sp0.ply ≠ 0 ∧
    (sp0.kingOf .Black).toOption = some (Square.at 5 9) ∧
    (sp0.kingOf .White).toOption = some (Square.at 5 1) ∧
    sp0.cell (Square.at 5 9).idx0 = some (Piece.mk' .King .Black) := by decide +kernel

theorem hist_sp0 : sp0.Hist where
  last := by intro c m h; rw [sp0_facts.1] at h; cases h
  ply := fun h => absurd h sp0_facts.2.1
  seen := by
    intro c i _ _
    cases c
    · rw [sp0_facts.2.2.1]; simp
    · rw [sp0_facts.2.2.2.1]; simp
  swap := by
    intro s t h _ e
    rw [sp0_facts.2.2.1] at h; cases h
    rw [sp0_facts.2.2.2.2] at e
    exact absurd (Option.some.inj e) (King_ne (by decide))

/-- Placing pieces one by one keeps the invariant, whatever is placed. -/
theorem hist_put {p q : PartialPosition} (h : p.Hist) {s : Square} (hs : s.Valid) {o : Option Piece}
    (ok : p.Ok) (cell : ∀ i < 81, q.cell i = if i = s.idx0 then o else p.cell i)
    (king : ∀ c, q.kingOf c = if o = some (Piece.mk' .King c) then .ofOption (some s) else p.kingOf c)
    (hply : q.ply = 0 → q.last_move.toOption ≠ none)
    (hlast : ∀ c m, q.last_move.toOption = some c → m.Valid → c.encodes m → m.CanBeLast) :
    q.Hist where
  last := hlast
  ply := hply
  seen := by
    intro c i hi e
    rw [king]
    split
    · rw [OptionSquare.toOption_ofOption_some hs]; simp
    · rename_i hn
      rw [cell i hi] at e
      split at e
      · exact absurd e hn
      · exact h.seen c i hi e
  swap := by
    intro a b ha hb ea eb
    have hav : a.Valid := by
      rw [king] at ha; split at ha
      · rw [OptionSquare.toOption_ofOption_some hs] at ha; cases ha; exact hs
      · exact ok.king _ _ ha
    have hbv : b.Valid := by
      rw [king] at hb; split at hb
      · rw [OptionSquare.toOption_ofOption_some hs] at hb; cases hb; exact hs
      · exact ok.king _ _ hb
    rw [cell _ (Square.idx0_lt hav)] at ea
    rw [cell _ (Square.idx0_lt hbv)] at eb
    rw [king] at ha hb
    by_cases h1 : o = some (Piece.mk' .King .Black)
    · rw [if_pos h1, OptionSquare.toOption_ofOption_some hs] at ha; cases ha
      rw [if_pos rfl, h1] at ea
      exact absurd (Option.some.inj ea) (King_ne (by decide))
    by_cases h2 : o = some (Piece.mk' .King .White)
    · rw [if_pos h2, OptionSquare.toOption_ofOption_some hs] at hb; cases hb
      rw [if_pos rfl, h2] at eb
      exact absurd (Option.some.inj eb) (King_ne (by decide))
    rw [if_neg h1] at ha
    rw [if_neg h2] at hb
    split at ea
    · exact absurd ea h2
    split at eb
    · exact absurd eb h1
    exact h.swap a b ha hb ea eb

theorem hist_set {p q : PartialPosition} (h : p.Hist) (ok : p.Ok) {s : Square} (hs : s.Valid)
    {o : Option Piece} (hq : SetTo p q s o) : q.Hist :=
  hist_put h hs ok hq.cell hq.king (by rw [hq.ply, hq.last]; exact h.ply)
    (by rw [hq.last]; exact h.last)

omit P in
theorem encoded_unique {c : CompactMove} {m m' : Move} (hm : m.Valid) (hm' : m'.Valid)
    (h : c.encodes m) (h' : c.encodes m') : m = m' := by
  have e := CompactMove.toMove_of_encodes hm h
  rw [CompactMove.toMove_of_encodes hm' h'] at e
  exact (Res.ok.inj e).symm

omit P in
theorem toOption_compact {c : CompactMove} {m : Move} (hm : m.Valid) (h : c.encodes m) :
    (OptionCompactMove.ofOption (some c)).toOption = some c := by
  have := CompactMove.ne_zero_of_encodes hm h
  simp [OptionCompactMove.ofOption, OptionCompactMove.toOption, this]

theorem canBeLast_of_eff {p q : PartialPosition} {m : Move} (hm : m.Valid) (he : p.Eff m q) :
    m.CanBeLast := by
  have hb := he.body
  cases m with
  | Normal s t pr =>
    obtain ⟨_, _, _, _, hne, _⟩ := hb
    exact ⟨hm.1, hm.2, fun e => hne (by rw [e])⟩
  | Drop x t =>
    obtain ⟨k, hk, hx, _⟩ := hb
    exact ⟨hm.2, k, p.side, hx, hk⟩

theorem hist_move {p q : PartialPosition} (h : p.Hist) (ok : p.Ok) {m : Move} (hm : m.Valid)
    (he : p.Eff m q) : q.Hist := by
  obtain ⟨c, _, henc, hl⟩ := he.last
  have hl' : q.last_move.toOption = some c := by rw [hl, toOption_compact hm henc]
  have hply : q.ply = 0 → q.last_move.toOption ≠ none := by intro _; rw [hl']; simp
  have hlast : ∀ c m, q.last_move.toOption = some c → m.Valid → c.encodes m → m.CanBeLast := by
    intro c' m' e hm' henc'
    rw [hl'] at e; cases e
    rw [encoded_unique hm' hm henc' henc]
    exact canBeLast_of_eff hm he
  have hb := he.body
  cases m with
  | Normal s t pr =>
    obtain ⟨k, k', h1, _, hne, hcell, hking, _⟩ := hb
    -- first the source is vacated
    obtain ⟨r, _, hr⟩ := piece_set_ok ok hm.1 (o := none) (by simp)
    refine hist_put (hist_set h ok hm.1 hr) hm.2 hr.ok (o := some (Piece.mk' k' p.side)) ?_ ?_
      hply hlast
    · intro i hi; rw [hcell i hi, hr.cell i hi]
    · intro c
      rw [hking, hr.king, if_neg (by simp : ¬ none = some (Piece.mk' .King c))]
      by_cases e : k' = .King ∧ c = p.side
      · rw [if_pos e, if_pos (by rw [e.1, e.2])]
      · rw [if_neg e, if_neg]
        intro e'
        have := Piece.mk'_inj (Option.some.inj e')
        exact e ⟨this.1, this.2.symm⟩
  | Drop x t =>
    obtain ⟨k, hk, hx, _, _, hcell, hking, _⟩ := hb
    refine hist_put h hm.2 ok hcell ?_ hply hlast
    intro c
    rw [hking, if_neg]
    intro e
    rw [hx] at e
    rw [(Piece.mk'_inj (Option.some.inj e)).1] at hk
    exact hk

theorem hist_update {p q : PartialPosition} (h : p.Hist) (hb : q.board = p.board)
    (hk : q.king_square = p.king_square) (hl : q.last_move = p.last_move)
    (hply : q.ply = 0 → p.ply = 0) : q.Hist := by
  have hc : ∀ i, q.cell i = p.cell i := by intro i; unfold cell; rw [hb]
  have hk' : ∀ c, q.kingOf c = p.kingOf c := by intro c; unfold kingOf; simp only [hk]
  exact {
    last := by rw [hl]; exact h.last
    ply := by rw [hl]; exact fun e => h.ply (hply e)
    seen := by intro c i hi e; rw [hk']; rw [hc] at e; exact h.seen c i hi e
    swap := by
      intro s t; rw [hk', hk', hc, hc]; exact h.swap s t }

theorem reach_hist {p : PartialPosition} (h : ApiReach p) : p.Hist := by
  induction h with
  | empty => exact hist_empty
  | startpos h => rw [reach_of_startpos h]; exact hist_sp0
  | @step p q hp hs ih =>
    have ok := reach_ok hp
    cases hs with
    | make_move hm e =>
      rcases make_move_ok ok hm with ⟨_, q', e', he⟩ | ⟨_, e'⟩ <;> rw [e'] at e <;> cases e
      · exact hist_move ih ok hm he
      · exact ih
    | make_compact_move hc e =>
      obtain ⟨m, hm, henc⟩ := hc
      unfold make_compact_move at e
      rw [CompactMove.toMove_of_encodes hm henc, Res.bind_ok] at e
      rcases make_move_ok ok hm with ⟨_, q', e', he⟩ | ⟨_, e'⟩ <;>
        rw [e', Res.bind_ok] at e <;> cases e
      · exact hist_move ih ok hm he
      · exact ih
    | piece_set hs ho e =>
      obtain ⟨q', e', hq⟩ := piece_set_ok ok hs ho
      rw [e] at e'; cases e'
      exact hist_set ih ok hs hq
    | hand hv e =>
      rw [hand_assign_ok] at e; cases e
      exact hist_update ih rfl rfl rfl id
    | side => exact hist_update ih rfl rfl rfl id
    | @ply n =>
      unfold ply_set
      split
      · exact ih
      · rename_i hn
        exact hist_update ih rfl rfl rfl (fun e => absurd e hn)

/-! ### The construction -/

/-- Some position in which only the last move and no king is known. -/
private theorem start_with (o : Option Move) (ho : ∀ m, o = some m → m.CanBeLast) (n : U16)
    (hn : n = 0 → o ≠ none) :
    ∃ p, ApiReach p ∧ p.get_last_move = .ok o ∧ p.ply = n ∧ ∀ c, p.kingOf c = .ofOption none := by
  have hk0 : ∀ c, PartialPosition.empty.kingOf c = .ofOption none := by intro c; cases c <;> rfl
  -- after the move only the number is to be set
  have fin : ∀ {p q : PartialPosition} {m : Move}, ApiReach p → m.Valid → p.Acc m → p.ply = 65535 →
      (∀ c, p.kingOf c = .ofOption none) → o = some m →
      (∀ q, p.Eff m q → ∀ c, q.kingOf c = p.kingOf c) →
      ∃ p, ApiReach p ∧ p.get_last_move = .ok o ∧ p.ply = n ∧ ∀ c, p.kingOf c = .ofOption none := by
    intro p q m hp hm ha hply hk e hkq
    rcases make_move_ok (reach_ok hp) hm with ⟨_, q, e1, he⟩ | ⟨h, _⟩
    rotate_left
    · exact absurd ha h
    obtain ⟨c, _, henc, hl⟩ := he.last
    have hlast : q.get_last_move = .ok (some m) := by
      simp only [get_last_move, last_compact_move, hl, toOption_compact hm henc,
        CompactMove.toMove_of_encodes hm henc, Res.bind_ok, Res.pure_eq]
    have hq := ApiReach.step hp (.make_move hm e1)
    have hqk : ∀ c, q.kingOf c = .ofOption none := fun c => by rw [hkq q he c, hk c]
    by_cases hz : n = 0
    · exact ⟨q, hq, by rw [hlast, e], by rw [he.ply, hply, hz]; rfl, hqk⟩
    · have := ApiReach.step hq (.ply (n := n))
      unfold ply_set at this
      rw [if_neg hz] at this
      exact ⟨_, this, by rw [e]; exact hlast, rfl, hqk⟩
  cases o with
  | none =>
    have := ApiReach.step .empty (.ply (n := n))
    unfold ply_set at this
    rw [if_neg (fun e => hn e rfl)] at this
    exact ⟨_, this, rfl, rfl, hk0⟩
  | some m =>
    have hm := ho m rfl
    have r1 := ApiReach.step .empty (.ply (n := 65535))
    generalize hp1 : (PartialPosition.empty.ply_set 65535).1 = p1 at r1
    have f1 : p1.ply = 65535 ∧ (∀ i, p1.cell i = PartialPosition.empty.cell i) ∧
        p1.side = .Black ∧ ∀ c, p1.kingOf c = .ofOption none := by
      rw [← hp1]; exact ⟨rfl, fun _ => rfl, rfl, hk0⟩
    clear hp1
    have hcell : ∀ i < 81, p1.cell i = none := by
      intro i hi
      have : ∀ i < 81, PartialPosition.empty.cell i = none := by decide +kernel
      rw [f1.2.1, this i hi]
    cases m with
    | Normal s t pr =>
      obtain ⟨hs, ht, hne⟩ := hm
      obtain ⟨q, e, hq⟩ := piece_set_ok (reach_ok r1) hs (o := some (Piece.mk' .Pawn .Black))
        (by intro x e; cases e; decide)
      have r2 := ApiReach.step r1 (.piece_set hs (by intro x e; cases e; decide) e)
      have hne' : t.idx0 ≠ s.idx0 := fun e => hne (Square.idx0_inj ht hs e).symm
      have hqs : q.cell s.idx0 = some (Piece.mk' .Pawn .Black) := by
        rw [hq.cell _ (Square.idx0_lt hs), if_pos rfl]
      have hside : q.side = .Black := by rw [hq.side, f1.2.2.1]
      refine fin (q := q) r2 (m := .Normal s t pr) ⟨hs, ht⟩ ?_ (by rw [hq.ply, f1.1]) ?_ rfl ?_
      · refine ⟨.Pawn, by rw [hqs, hside], .inl ?_, fun _ => ⟨.ProPawn, rfl⟩⟩
        rw [hq.cell _ (Square.idx0_lt ht), if_neg hne', hcell _ (Square.idx0_lt ht)]
      · intro c
        rw [hq.king, if_neg (by cases c <;> decide), f1.2.2.2]
      · intro r he c
        obtain ⟨k, k', h1, h2, _, _, hk, _⟩ := he.body
        rw [hqs, hside] at h1
        have := (Piece.mk'_inj (Option.some.inj h1)).1
        subst this
        rw [hk, if_neg]
        rintro ⟨rfl, _⟩
        cases pr
        · cases h2
        · cases h2
    | Drop x t =>
      obtain ⟨ht, k, c, rfl, hk⟩ := hm
      have hv : (Hand.new.bump k hk).Valid := Hand.setCell_valid Hand.new_valid k hk _
      have r2 := ApiReach.step r1 (.hand hv (hand_assign_ok p1 c (Hand.new.bump k hk)))
      have r3 := ApiReach.step r2 (.side (c := c))
      refine fin (q := p1) r3 (m := .Drop (Piece.mk' k c) t) ⟨Piece.mk'_valid k c, ht⟩ ?_ f1.1 f1.2.2.2 rfl ?_
      · refine ⟨k, hk, rfl, hcell _ (Square.idx0_lt ht), ?_⟩
        have e1 := handOf_setHand p1 c c (Hand.new.bump k hk)
        rw [if_pos rfl] at e1
        have e2 : ((p1.setHand c (Hand.new.bump k hk)).side_to_move_set c).handOf c =
          Hand.new.bump k hk := e1
        show ((((p1.setHand c (Hand.new.bump k hk)).side_to_move_set c).handOf c).cell k hk).toNat ≠ 0
        rw [e2]
        cases k <;> first | exact absurd hk (by decide) | exact Nat.one_ne_zero
      · intro r he d
        obtain ⟨_, _, _, _, _, _, h, _⟩ := he.body
        exact h d

/-- What placing pieces does not change. -/
private structure Same (p q : PartialPosition) : Prop where
  reach : ApiReach q
  last : q.last_move = p.last_move
  ply : q.ply = p.ply

private theorem fill {p : PartialPosition} (hp : ApiReach p) (f : Square → Option Piece)
    (hf : ∀ s x, s.Valid → f s = some x → x.Valid) : ∀ n ≤ 81, ∃ q, Same p q ∧
      (∀ i < n, q.cell i = f (Square.ofIdx i)) ∧
      ∀ c, (∀ s : Square, s.Valid → f s ≠ some (Piece.mk' .King c)) → q.kingOf c = p.kingOf c := by
  intro n
  induction n with
  | zero => intro _; exact ⟨p, ⟨hp, rfl, rfl⟩, by simp, fun _ _ => rfl⟩
  | succ n ih =>
    intro hn
    obtain ⟨q, hq, h1, h2⟩ := ih (by omega)
    have hv := Square.ofIdx_valid (i := n) (by omega)
    obtain ⟨r, e, hr⟩ := piece_set_ok (reach_ok hq.reach) hv (fun x => hf _ x hv)
    refine ⟨r, ⟨.step hq.reach (.piece_set hv (fun x => hf _ x hv) e), by rw [hr.last, hq.last],
      by rw [hr.ply, hq.ply]⟩, fun i hi => ?_, fun c hc => ?_⟩
    · rw [hr.cell i (by omega), Square.idx0_ofIdx (by omega)]
      split
      · rename_i h; rw [h]
      · exact h1 i (by omega)
    · rw [hr.king, if_neg (hc _ hv), h2 c hc]

/-- Making `king_position` answer `s` by a king that is replaced at once. -/
private theorem remember {p : PartialPosition} (hp : ApiReach p) (f : Square → Option Piece)
    (hf : ∀ s x, s.Valid → f s = some x → x.Valid) (hc : ∀ i < 81, p.cell i = f (Square.ofIdx i))
    (c : Color) (s : Square) (hs : s.Valid) : ∃ q, Same p q ∧
      (∀ i < 81, q.cell i = f (Square.ofIdx i)) ∧ q.kingOf c = .ofOption (some s) ∧
      (f s ≠ some (Piece.mk' .King c.other) → q.kingOf c.other = p.kingOf c.other) := by
  have hkv : ∀ x, some (Piece.mk' .King c) = some x → x.Valid := by
    intro x e; cases e; exact Piece.mk'_valid _ _
  obtain ⟨q, e, hq⟩ := piece_set_ok (reach_ok hp) hs hkv
  have r1 := ApiReach.step hp (.piece_set hs hkv e)
  obtain ⟨r, e', hr⟩ := piece_set_ok (reach_ok r1) hs (fun x => hf s x hs)
  refine ⟨r, ⟨.step r1 (.piece_set hs (fun x => hf s x hs) e'), by rw [hr.last, hq.last],
    by rw [hr.ply, hq.ply]⟩, ?_, ?_, ?_⟩
  · intro i hi
    rw [hr.cell i hi, hq.cell i hi]
    split
    · rename_i h; rw [h, Square.ofIdx_idx0 hs]
    · exact hc i hi
  · rw [hr.king, hq.king, if_pos rfl, ite_self]
  · intro h
    rw [hr.king, if_neg h, hq.king, if_neg]
    intro e
    exact absurd (Option.some.inj e) (King_ne (by cases c <;> decide))

omit P in
private theorem ofOption_of_toOption {o : OptionSquare} {x : Option Square}
    (h : o = .ofOption x) (hx : ∀ s, x = some s → s.Valid) : o.toOption = x := by
  cases x with
  | none => rw [h]; rfl
  | some s => rw [h]; exact OptionSquare.toOption_ofOption_some (hx s rfl)

/-- Both kings as wanted. -/
private theorem kings {p : PartialPosition} (hp : ApiReach p) (f : Square → Option Piece)
    (hf : ∀ s x, s.Valid → f s = some x → x.Valid) (hc : ∀ i < 81, p.cell i = f (Square.ofIdx i))
    (k : Color → Option Square) (hk : ∀ c s, k c = some s → s.Valid)
    (hnone : ∀ c, k c = none → p.kingOf c = .ofOption none)
    (hsee : ∀ c s, s.Valid → f s = some (Piece.mk' .King c) → k c ≠ none)
    (c : Color) (hsw : ∀ s, k c.other = some s → f s ≠ some (Piece.mk' .King c)) :
    ∃ q, Same p q ∧ (∀ i < 81, q.cell i = f (Square.ofIdx i)) ∧ ∀ d, q.kingOf d = .ofOption (k d) := by
  -- first `c`
  have h1 : ∃ q, Same p q ∧ (∀ i < 81, q.cell i = f (Square.ofIdx i)) ∧ q.kingOf c = .ofOption (k c) ∧
      (k c.other = none → q.kingOf c.other = .ofOption none) := by
    cases e : k c with
    | none => exact ⟨p, ⟨hp, rfl, rfl⟩, hc, hnone c e, hnone _⟩
    | some s =>
      obtain ⟨q, h1, h2, h3, h4⟩ := remember hp f hf hc c s (hk c s e)
      refine ⟨q, h1, h2, h3, fun e' => ?_⟩
      rw [h4 (fun e'' => hsee _ s (hk c s e) e'' e'), hnone _ e']
  obtain ⟨q, hq, hqc, hqk, hqo⟩ := h1
  have both : ∀ {r : PartialPosition}, r.kingOf c = .ofOption (k c) →
      r.kingOf c.other = .ofOption (k c.other) → ∀ d, r.kingOf d = .ofOption (k d) := by
    intro r a b d
    by_cases e : d = c
    · rw [e, a]
    · have : d = c.other := by cases c <;> cases d <;> first | rfl | exact absurd rfl e
      rw [this, b]
  cases e : k c.other with
  | none => exact ⟨q, hq, hqc, both hqk (by rw [hqo e, e])⟩
  | some s =>
    obtain ⟨r, h1, h2, h3, h4⟩ := remember hq.reach f hf hqc c.other s (hk _ s e)
    have hoo : c.other.other = c := by cases c <;> rfl
    rw [hoo] at h4
    exact ⟨r, ⟨h1.reach, by rw [h1.last, hq.last], by rw [h1.ply, hq.ply]⟩, h2,
      both (by rw [h4 (hsw s e), hqk]) (by rw [h3, e])⟩

/-! ### C62 -/

/-- C62: there is a position giving these answers to all questions iff they fit together in the
few ways listed in `Setup.Possible`. -/
theorem C62_exact (S : Setup) : (∃ p, ApiReach p ∧ p.Answers S) ↔ S.Possible := by
  constructor
  · rintro ⟨p, hp, h⟩
    have ok := reach_ok hp
    have hi := reach_hist hp
    have hb : ∀ s : Square, s.Valid → p.cell s.idx0 = S.board s := by
      intro s hs; have := h.board s hs; rw [piece_at_ok p hs] at this; exact Res.ok.inj this
    have hk : ∀ c, (p.kingOf c).toOption = S.king c := by
      intro c; have := h.king c; rw [king_position_ok] at this; exact Res.ok.inj this
    have hkv : ∀ c s, S.king c = some s → s.Valid := fun c s e => ok.king c s (by rw [hk, e])
    exact {
      pieces := fun s x hs e => ok.cells _ x (by rw [hb s hs, e])
      hands := fun c => by
        have := h.hands c
        rw [hand_of_a_player_ok] at this
        rw [← Res.ok.inj this]; exact ok.hand c
      last := by
        intro m e
        rcases get_last_ok ok with ⟨_, h2⟩ | ⟨c, m', h1, hm, henc, h2⟩
        · have := h.last; rw [h2, e] at this; cases this
        · have := h.last; rw [h2, e] at this; cases this
          exact hi.last c _ h1 hm henc
      ply := by
        intro e e'
        rcases get_last_ok ok with ⟨h1, _⟩ | ⟨c, m', h1, hm, henc, h2⟩
        · exact hi.ply (h.ply.trans e) h1
        · have := h.last; rw [h2, e'] at this; cases this
      king_valid := hkv
      king_seen := fun c s hs e => by
        rw [← hk]; exact hi.seen c _ (Square.idx0_lt hs) (by rw [hb s hs, e])
      no_swap := fun s t es et e1 => by
        have := hi.swap s t (by rw [hk, es]) (by rw [hk, et])
        rw [hb s (hkv _ _ es), hb t (hkv _ _ et)] at this
        exact this e1 }
  · intro h
    obtain ⟨p0, hp0, hl0, hn0, hk0⟩ := start_with S.last h.last S.ply h.ply
    obtain ⟨p1, s1, hc1, hk1⟩ := fill hp0 S.board h.pieces 81 (Nat.le_refl _)
    have hnone : ∀ c, S.king c = none → p1.kingOf c = .ofOption none := by
      intro c e
      rw [hk1 c (fun s hs e' => h.king_seen c s hs e' e), hk0]
    have h2 : ∃ q, Same p1 q ∧ (∀ i < 81, q.cell i = S.board (Square.ofIdx i)) ∧
        ∀ d, q.kingOf d = .ofOption (S.king d) := by
      by_cases hsw : ∀ s, S.king .White = some s → S.board s ≠ some (Piece.mk' .King .Black)
      · exact kings s1.reach S.board h.pieces hc1 S.king h.king_valid hnone h.king_seen .Black hsw
      · refine kings s1.reach S.board h.pieces hc1 S.king h.king_valid hnone h.king_seen .White ?_
        intro s es e
        exact hsw fun t et => h.no_swap s t es et e
    obtain ⟨p2, s2, hc2, hk2⟩ := h2
    have r1 := ApiReach.step s2.reach (.hand (h.hands .Black) (hand_assign_ok p2 .Black _))
    have r2 := ApiReach.step r1 (.hand (h.hands .White) (hand_assign_ok _ .White _))
    have r3 := ApiReach.step r2 (.side (c := S.side))
    refine ⟨_, r3, ?_, ?_, rfl, ?_, ?_, ?_⟩
    · intro s hs
      rw [piece_at_ok _ hs]
      have := hc2 _ (Square.idx0_lt hs)
      rw [Square.ofIdx_idx0 hs] at this
      rw [← this]; rfl
    · intro c
      rw [hand_of_a_player_ok]
      have e1 := handOf_setHand (p2.setHand .Black (S.hands .Black)) .White c (S.hands .White)
      rw [handOf_setHand p2 .Black c (S.hands .Black)] at e1
      refine congrArg Res.ok (Eq.trans e1 ?_)
      cases c <;> rfl
    · show p2.ply = S.ply
      rw [s2.ply, s1.ply, hn0]
    · show p2.get_last_move = _
      rw [← hl0]
      simp only [get_last_move, last_compact_move, s2.last, s1.last]
    · intro c
      rw [king_position_ok]
      exact congrArg Res.ok (ofOption_of_toOption (hk2 c) (h.king_valid c))

/-- Non-vacuity: a possible set of answers with everything unusual: move number 0, 255 black
pawns in hand, a lone white king on 5e remembered on 1a, and a black king remembered on 5e. -/
example : ∃ p, ApiReach p ∧ p.get_ply = 0 ∧ p.get_last_move = .ok (some (.Drop ⟨17⟩ ⟨1⟩)) ∧
    p.piece_at ⟨41⟩ = .ok (some (Piece.mk' .King .White)) ∧
    p.king_position .Black = .ok (some ⟨41⟩) ∧ p.king_position .White = .ok (some ⟨1⟩) := by
  obtain ⟨p, hp, h⟩ := (C62_exact {
    board := fun s => if s = ⟨41⟩ then some (Piece.mk' .King .White) else none
    hands := fun c => if c = .Black then ⟨#v[255, 0, 0, 0, 0, 0, 0, 0]⟩ else Hand.new
    side := .White, ply := 0, last := some (.Drop ⟨17⟩ ⟨1⟩)
    king := fun c => if c = .Black then some ⟨41⟩ else some ⟨1⟩ }).2 {
      pieces := by intro s x _ e; simp only at e; split at e <;> cases e; decide
      hands := by intro c; cases c <;> decide
      last := by rintro m ⟨⟩; exact ⟨by decide, .Pawn, .White, rfl, by decide⟩
      ply := by intro _; simp
      king_valid := by intro c s e; cases c <;> cases e <;> decide
      king_seen := by intro c s _ _; cases c <;> simp
      no_swap := by rintro s t ⟨⟩ ⟨⟩ _; simp }
  exact ⟨p, hp, h.ply, h.last, h.board ⟨41⟩ (by decide), h.king .Black, h.king .White⟩

/-- Non-vacuity of the exclusions: no history puts the kings on each other's remembered square. -/
example : ¬ ∃ p, ApiReach p ∧ p.king_position .Black = .ok (some ⟨1⟩) ∧
    p.king_position .White = .ok (some ⟨2⟩) ∧
    p.piece_at ⟨1⟩ = .ok (some (Piece.mk' .King .White)) ∧
    p.piece_at ⟨2⟩ = .ok (some (Piece.mk' .King .Black)) := by
  rintro ⟨p, hp, h1, h2, h3, h4⟩
  rw [king_position_ok] at h1 h2
  rw [piece_at_ok p (by decide)] at h3 h4
  exact (reach_hist hp).swap _ _ (Res.ok.inj h1) (Res.ok.inj h2) (Res.ok.inj h3) (Res.ok.inj h4)

/-- C62: every position gives answers. -/
theorem C62_answers (p : PartialPosition) (hp : ApiReach p) : ∃ S, p.Answers S := by
  have hl : ∃ o, p.get_last_move = .ok o := by
    rcases get_last_ok (reach_ok hp) with ⟨_, h⟩ | ⟨_, _, _, _, _, h⟩ <;> exact ⟨_, h⟩
  obtain ⟨o, ho⟩ := hl
  exact ⟨⟨fun s => p.cell s.idx0, p.handOf, p.side, p.ply, o, fun c => (p.kingOf c).toOption⟩,
    fun s hs => piece_at_ok p hs, hand_of_a_player_ok p, rfl, rfl, ho, king_position_ok p⟩

/-- C62: the answers determine the position, including everything that is not visible. -/
theorem C62_determined (p q : PartialPosition) (hp : ApiReach p) (hq : ApiReach q) (S : Setup)
    (h : p.Answers S) (h' : q.Answers S) : p = q := by
  refine (reach_ok hp).ext (reach_ok hq) (h.side.trans h'.side.symm) (h.ply.trans h'.ply.symm) ?_ ?_
    (same_last (reach_ok hp) (reach_ok hq) (h.last.trans h'.last.symm)) ?_
  · intro c
    have e := (h.hands c).trans (h'.hands c).symm
    rw [hand_of_a_player_ok, hand_of_a_player_ok] at e
    exact Res.ok.inj e
  · intro i hi
    have hv := Square.ofIdx_valid hi
    have e := (h.board _ hv).trans (h'.board _ hv).symm
    rw [piece_at_ok p hv, piece_at_ok q hv, Square.idx0_ofIdx hi] at e
    exact Res.ok.inj e
  · intro c
    have e := (h.king c).trans (h'.king c).symm
    rw [king_position_ok, king_position_ok] at e
    have e := Res.ok.inj e
    unfold OptionSquare.toOption at e
    generalize p.kingOf c = a at *
    generalize q.kingOf c = b at *
    obtain ⟨a⟩ := a
    obtain ⟨b⟩ := b
    simp only at e
    split at e <;> split at e <;> simp_all

end ShogiCore
