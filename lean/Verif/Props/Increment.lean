import Verif.Spec.Increment
import Verif.Props.Reorder
import Verif.Props.Machine

/- C82: scores and keys kept up to date move by move. -/

set_option linter.unusedSectionVars false

namespace ShogiCore
open PartialPosition

namespace Ledger
variable {G : Type} (A : Ledger G)

instance : Std.Associative A.add := ⟨A.assoc⟩
instance : Std.Commutative A.add := ⟨A.comm⟩

theorem add_zero (a : G) : A.add a A.zero = a := by rw [A.comm, A.zero_add]

theorem cancel (a b : G) : A.add a (A.add (A.neg a) b) = b := by
  rw [← A.assoc, A.comm a, A.neg_add, A.zero_add]

theorem neg_zero : A.neg A.zero = A.zero := by
  have := A.neg_add A.zero
  rwa [A.add_zero] at this

theorem sum_cons (a : G) (l : List G) : A.sum (a :: l) = A.add a (A.sum l) := rfl

theorem sum_zero {α : Type} : ∀ l : List α, A.sum (l.map fun _ => A.zero) = A.zero
  | [] => rfl
  | _ :: l => by rw [List.map_cons, sum_cons, sum_zero l, A.zero_add]

/-- If only one place changes, the sum changes by the difference there. -/
theorem sum_change {α : Type} {f g : α → G} {x : α} : ∀ {l : List α}, l.Nodup → x ∈ l →
    (∀ y ∈ l, y ≠ x → g y = f y) →
    A.sum (l.map g) = A.add (A.sum (l.map f)) (A.add (A.neg (f x)) (g x)) := by
  intro l
  induction l with
  | nil => intro _ h; cases h
  | cons y l ih =>
    intro hn hx h
    obtain ⟨hy, hn⟩ := List.nodup_cons.1 hn
    rw [List.map_cons, List.map_cons, sum_cons, sum_cons]
    by_cases e : y = x
    · subst e
      have : l.map g = l.map f := List.map_congr_left fun z hz =>
        h z (List.mem_cons_of_mem _ hz) (by rintro rfl; exact hy hz)
      rw [this]
      have := A.cancel (f y) (A.add (g y) (A.sum (l.map f)))
      rw [← this]
      ac_rfl
    · rw [h y (by simp) e, ih hn ((List.mem_cons.1 hx).resolve_left (Ne.symm e))
        fun z hz => h z (List.mem_cons_of_mem _ hz)]
      ac_rfl

/-- If only two places change, the sum changes by the differences there. -/
theorem sum_change₂ {α : Type} [DecidableEq α] {f g : α → G} {x y : α} {l : List α} (hn : l.Nodup)
    (hx : x ∈ l) (hy : y ∈ l) (ne : x ≠ y) (h : ∀ z ∈ l, z ≠ x → z ≠ y → g z = f z) :
    A.sum (l.map g) = A.add (A.sum (l.map f))
      (A.add (A.add (A.neg (f x)) (g x)) (A.add (A.neg (f y)) (g y))) := by
  rw [A.sum_change (f := fun z => if z = x then g x else f z) hn hy fun z hz e => ?_,
    A.sum_change (f := f) (g := fun z => if z = x then g x else f z) hn hx fun z _ e => if_neg e,
    if_pos rfl, if_neg ne.symm]
  · ac_rfl
  · show g z = if z = x then g x else f z
    split
    · next h => rw [h]
    · next h' => exact h z hz h' e

/-- If only one summand is not zero, the sum is that summand. -/
theorem sum_single {α : Type} {f : α → G} {x : α} {l : List α} (hn : l.Nodup) (hx : x ∈ l)
    (h : ∀ y ∈ l, y ≠ x → f y = A.zero) : A.sum (l.map f) = f x := by
  rw [A.sum_change (f := fun _ => A.zero) hn hx h, A.sum_zero, A.neg_zero, A.zero_add, A.zero_add]

end Ledger

private theorem collect_ok {α β : Type} {f : α → Res β} {g : α → β} :
    ∀ {l : List α}, (∀ a ∈ l, f a = .ok (g a)) → l.mapM f = .ok (l.map g)
  | [], _ => rfl
  | a :: l, h => by
    rw [List.mapM_cons, h a (by simp), Res.bind_ok, collect_ok fun b hb => h b (by simp [hb])]; rfl

private theorem collect_congr {α β : Type} {f g : α → Res β} :
    ∀ {l : List α}, (∀ a ∈ l, f a = g a) → l.mapM f = l.mapM g
  | [], _ => rfl
  | a :: l, h => by
    rw [List.mapM_cons, List.mapM_cons, h a (by simp), collect_congr fun b hb => h b (by simp [hb])]

variable [P : Profile] {G : Type} (A : Ledger G) (T : Tariff G)

/-- What the clients read: the board, the numbers in hand. -/
private structure Reads (p : PartialPosition) (b : Square → Option Piece) (n : Color → PieceKind → U8) :
    Prop where
  board : ∀ s : Square, s.Valid → p.piece_at s = .ok (b s)
  hands : ∀ c k, k.InHand → p.hand (Piece.mk' k c) = .ok (some (n c k))

private theorem reads (p : PartialPosition) (hp : ApiReach p) : ∃ b n, Reads p b n := by
  obtain ⟨S, h⟩ := C62_answers p hp
  obtain ⟨S', h'⟩ := C53_total p hp
  refine ⟨S.board, fun c k => BitVec.ofNat 8 (S'.hand c k), h.board, fun c k hk => ?_⟩
  obtain ⟨n, e, hn⟩ := h'.hand c k hk
  rw [e, ← hn, BitVec.ofNat_toNat, BitVec.setWidth_eq]

private def worth (b : Square → Option Piece) (s : Square) : G :=
  match b s with | none => A.zero | some x => T.piece s x

private def kept (n : Color → PieceKind → U8) (ck : Color × PieceKind) : G := T.held ck.1 ck.2 (n ck.1 ck.2)

private theorem lists : ∃ L K, Square.all = .ok L ∧ L.Nodup ∧ (∀ s : Square, s ∈ L ↔ s.Valid) ∧
    Hand.all_hand_pieces = .ok K ∧ (Color.all.flatMap fun c => K.map fun k => (c, k)).Nodup ∧
    ∀ c k, (c, k) ∈ (Color.all.flatMap fun c => K.map fun k => (c, k)) ↔ k.InHand := by
  obtain ⟨L, h1, h2, h3, _⟩ := C02_all
  have e : Hand.all_hand_pieces = .ok [.Pawn, .Lance, .Knight, .Silver, .Gold, .Bishop, .Rook] := by
    decide +kernel
  exact ⟨L, _, h1, h3, h2, e, by decide, by decide⟩

private theorem evaluate_ok {p : PartialPosition} {b n} (h : Reads p b n) {L K} (hL : Square.all = .ok L)
    (hv : ∀ s : Square, s ∈ L ↔ s.Valid) (hK : Hand.all_hand_pieces = .ok K)
    (hk : ∀ c k, (c, k) ∈ (Color.all.flatMap fun c => K.map fun k => (c, k)) ↔ k.InHand) :
    p.evaluate A T = .ok (A.add (A.add (A.sum (L.map (worth A T b)))
      (A.sum ((Color.all.flatMap fun c => K.map fun k => (c, k)).map (kept T n)))) (T.turn p.side_to_move)) := by
  unfold evaluate
  rw [hL, Res.bind_ok, collect_ok (g := worth A T b), Res.bind_ok, hK, Res.bind_ok, collect_ok (g := kept T n),
    Res.bind_ok]
  · rfl
  · rintro ⟨c, k⟩ h'
    simp only [Piece.new_ok, Res.bind_ok, h.hands c k ((hk c k).1 h')]; rfl
  · intro s hs
    rw [h.board s ((hv s).1 hs), Res.bind_ok, worth]
    cases b s <;> rfl

private theorem hand_total (p : PartialPosition) (k : PieceKind) (c : Color) :
    ∃ o, p.hand (Piece.mk' k c) = .ok o := by
  rw [hand_ok, Hand.count_ok]; split <;> exact ⟨_, rfl⟩

private theorem base_eq (k : PieceKind) : k.unpromote.getD k = k.base := by cases k <;> rfl

/-- C82: both clients always get an answer. -/
theorem C82_total (p : PartialPosition) (hp : ApiReach p) :
    (∃ g, p.evaluate A T = .ok g) ∧ ∀ m : Move, m.Valid → ∃ d, p.delta A T m = .ok d := by
  obtain ⟨b, n, h⟩ := reads p hp
  obtain ⟨L, K, h1, -, h2, h3, -, h4⟩ := lists
  refine ⟨⟨_, evaluate_ok A T h h1 h2 h3 h4⟩, fun m hm => ?_⟩
  unfold delta
  simp only [Color.flip_ok, Res.bind_ok]
  cases m with
  | Normal s t pr =>
    dsimp only
    rcases C25_total p hp s hm.1 with e | ⟨k, c, e⟩ <;> simp only [e, Res.bind_ok]
    · exact ⟨_, rfl⟩
    · obtain ⟨y, hy⟩ : ∃ y, (Piece.mk' k c).landing pr = .ok y := by
        cases pr <;> simp [Piece.landing]
      rw [hy, Res.bind_ok]
      rcases C25_total p hp t hm.2 with e' | ⟨k', c', e'⟩ <;> simp only [e', Res.bind_ok]
      · exact ⟨_, rfl⟩
      · obtain ⟨o, ho⟩ := hand_total p (k'.unpromote.getD k') p.side_to_move
        simp only [Piece.piece_kind_mk', Res.bind_ok, Piece.new_ok, ho]
        cases o <;> exact ⟨_, rfl⟩
  | Drop x t =>
    obtain ⟨k, c, rfl⟩ := Piece.exists_mk' hm.1
    obtain ⟨o, ho⟩ := hand_total p k c
    simp only [Piece.piece_kind_mk', Res.bind_ok, ho]
    cases o <;> exact ⟨_, rfl⟩

/-- C82: if a move is accepted, the total of the new position is the old total plus what the client
computed for the move. -/
theorem C82_move (p q : PartialPosition) (hp : ApiReach p) (m : Move) (hm : m.Valid)
    (e : p.make_move m = .ok (q, some ())) : ∃ g d, p.evaluate A T = .ok g ∧ p.delta A T m = .ok d ∧
      q.evaluate A T = .ok (A.add g d) := by
  obtain ⟨L, K, h1, hL, h2, h3, hK, h4⟩ := lists
  obtain ⟨b, n, h⟩ := reads p hp
  have hq : ApiReach q := .step hp (.make_move hm e)
  obtain ⟨b', n', h'⟩ := reads q hq
  have pl := C29_effect p q hp m hm e
  have ac := ((C28_accept_iff p hp m hm).1).2 ⟨q, e⟩
  have nv := C28_never p q hp m hm e
  have ht := A.cancel (T.turn p.side_to_move) (T.turn p.side_to_move.other)
  rw [evaluate_ok A T h h1 h2 h3 h4, evaluate_ok A T h' h1 h2 h3 h4, pl.side]
  unfold delta
  simp only [Color.flip_ok, Res.bind_ok]
  generalize A.add (A.neg (T.turn p.side_to_move)) (T.turn p.side_to_move.other) = τ at ht ⊢
  -- the numbers in hand
  have hh : ∀ c k, k.InHand → p.HandAfter m k c (n c k) (n' c k) := by
    intro c k hk
    obtain ⟨a, a', e1, e2, e3⟩ := pl.hands k c hk
    rw [h.hands c k hk] at e1
    rw [h'.hands c k hk] at e2
    cases e1; cases e2
    exact e3
  have hb := pl.board
  cases m with
  | Normal s t pr =>
    obtain ⟨⟨k, k', e1, e2, e3⟩, e4, e5⟩ := hb
    have ne : s ≠ t := fun e => nv.1 (by rw [e]; rfl)
    have b1 : b s = some (Piece.mk' k p.side_to_move) := by
      have := h.board s hm.1; rw [e1] at this; exact (Res.ok.inj this).symm
    have b2 : b' t = some (Piece.mk' k' p.side_to_move) := by
      have := h'.board t hm.2; rw [e3] at this; exact (Res.ok.inj this).symm
    have b3 : b' s = none := by
      have := h'.board s hm.1; rw [e4] at this; exact (Res.ok.inj this).symm
    have hy : (Piece.mk' k p.side_to_move).landing pr = .ok (Piece.mk' k' p.side_to_move) := by
      unfold Piece.landing
      cases pr
      · cases e2; rfl
      · rw [if_pos rfl] at e2 ⊢
        rw [Piece.promote_mk', (PieceKind.promote_iff _ _).2 e2]; rfl
    have hs := A.sum_change₂ (f := worth A T b) (g := worth A T b') hL ((h2 s).2 hm.1) ((h2 t).2 hm.2) ne
      (fun u hu us ut => by
        have := e5 u ((h2 u).1 hu) us ut
        rw [h.board u ((h2 u).1 hu), h'.board u ((h2 u).1 hu)] at this
        unfold worth; rw [Res.ok.inj this])
    have w1 : worth A T b s = T.piece s (Piece.mk' k p.side_to_move) := by rw [worth, b1]
    have w2 : worth A T b' t = T.piece t (Piece.mk' k' p.side_to_move) := by rw [worth, b2]
    have w3 : worth A T b' s = A.zero := by rw [worth, b3]
    dsimp only
    simp only [e1, Res.bind_ok, hy]
    rw [hs, w1, w2, w3]
    obtain ⟨_, _, ht' | ⟨l, hl, ht'⟩, _⟩ := ac
    · have nc : ∀ k c, ¬ p.Captures t k c := by
        rintro k c ⟨_, l, _, e⟩; rw [ht'] at e; cases e
      have : (Color.all.flatMap fun c => K.map fun k => (c, k)).map (kept T n') =
          (Color.all.flatMap fun c => K.map fun k => (c, k)).map (kept T n) := by
        refine List.map_congr_left fun ck hck => ?_
        unfold kept; rw [(hh ck.1 ck.2 ((h4 _ _).1 hck)).2 (nc _ _)]
      have w4 : worth A T b t = A.zero := by
        have := h.board t hm.2; rw [ht'] at this; rw [worth, ← Res.ok.inj this]
      refine ⟨_, _, rfl, by simp only [ht', Res.bind_ok]; rfl, ?_⟩
      rw [this, w4, A.neg_zero, A.zero_add, A.add_zero, ← ht]
      congr 1
      ac_rfl
    · have hk := base_inHand hl
      have w4 : worth A T b t = T.piece t (Piece.mk' l p.side_to_move.other) := by
        have := h.board t hm.2; rw [ht'] at this; rw [worth, ← Res.ok.inj this]
      have hc : ∀ c k, p.Captures t k c ↔ (c, k) = (p.side_to_move, l.base) := by
        intro c k
        constructor
        · rintro ⟨rfl, l', rfl, e⟩
          rw [ht'] at e
          rw [(Piece.mk'_inj (Option.some.inj (Res.ok.inj e))).1]
        · rintro ⟨⟩; exact ⟨rfl, l, rfl, ht'⟩
      have hs' := A.sum_change (f := kept T n) (g := kept T n') hK ((h4 p.side_to_move _).2 hk) (fun ck hck ne => by
        unfold kept; rw [(hh ck.1 ck.2 ((h4 _ _).1 hck)).2 (fun h => ne ((hc _ _).1 h))])
      have hn : n' p.side_to_move l.base = n p.side_to_move l.base + 1 :=
        (hh p.side_to_move l.base hk).1 ((hc _ _).2 rfl)
      refine ⟨_, _, rfl, by
        simp only [ht', Res.bind_ok, Piece.piece_kind_mk', base_eq, Piece.new_ok, h.hands p.side_to_move _ hk]; rfl, ?_⟩
      rw [hs', w4, A.add_zero, ← ht]
      simp only [kept, hn]
      congr 1
      ac_rfl
  | Drop x t =>
    obtain ⟨k, a, rfl, hk, ht', hx, ha⟩ := ac
    obtain ⟨e1, e2⟩ := hb
    have b1 : b' t = some (Piece.mk' k p.side_to_move) := by
      have := h'.board t hm.2; rw [e1] at this; exact (Res.ok.inj this).symm
    have w1 : worth A T b t = A.zero := by
      have := h.board t hm.2; rw [ht'] at this; rw [worth, ← Res.ok.inj this]
    have w2 : worth A T b' t = T.piece t (Piece.mk' k p.side_to_move) := by rw [worth, b1]
    have hs := A.sum_change (f := worth A T b) (g := worth A T b') hL ((h2 t).2 hm.2)
      (fun u hu ut => by
        have := e2 u ((h2 u).1 hu) ut
        rw [h.board u ((h2 u).1 hu), h'.board u ((h2 u).1 hu)] at this
        unfold worth; rw [Res.ok.inj this])
    have hs' := A.sum_change (f := kept T n) (g := kept T n') hK ((h4 p.side_to_move _).2 hk) (fun ck hck ne => by
        have := hh ck.1 ck.2 ((h4 _ _).1 hck)
        simp only [HandAfter] at this
        rw [if_neg fun e => ne (by rw [(Piece.mk'_inj e).1, (Piece.mk'_inj e).2])] at this
        unfold kept; rw [this])
    have hn : n' p.side_to_move k = n p.side_to_move k - 1 := by
      have := hh p.side_to_move k hk
      simp only [HandAfter] at this
      simp only [if_true] at this
      exact this.2
    refine ⟨_, _, rfl, by simp only [Piece.piece_kind_mk', Res.bind_ok, h.hands p.side_to_move k hk]; rfl, ?_⟩
    rw [hs, hs', w1, w2, A.neg_zero, A.zero_add, ← ht]
    simp only [kept, hn]
    congr 1
    ac_rfl

/-- C82: a client that keeps its total up to date by what it computes for the moves has the right
total after any moves, whatever is accepted and whatever is not. -/
theorem C82_follow (p : PartialPosition) (hp : ApiReach p) (g : G) (hg : p.evaluate A T = .ok g)
    (l : List Move) (hl : ∀ m ∈ l, m.Valid) : ∃ q g' v, p.follow A T g l = .ok (q, g') ∧
      p.playAll l = .ok (q, v) ∧ q.evaluate A T = .ok g' := by
  induction l generalizing p g with
  | nil => exact ⟨p, g, [], rfl, rfl, hg⟩
  | cons m l ih =>
    have hm := hl m (by simp)
    obtain ⟨d, hd⟩ := (C82_total A T p hp).2 m hm
    rcases make_move_ok (reach_ok hp) hm with ⟨_, q, e, _⟩ | ⟨_, e⟩
    · obtain ⟨g1, d1, e1, e2, e3⟩ := C82_move A T p q hp m hm e
      rw [hg] at e1; cases e1
      rw [hd] at e2; cases e2
      obtain ⟨r, g', v, f1, f2, f3⟩ := ih q (.step hp (.make_move hm e)) _ e3 fun m hm => hl m (by simp [hm])
      refine ⟨r, g', true :: v, ?_, ?_, f3⟩
      · simp only [follow, hd, e, Res.bind_ok, Option.isSome_some, if_true, f1]
      · simp only [playAll, e, Res.bind_ok, f2]; rfl
    · obtain ⟨r, g', v, f1, f2, f3⟩ := ih p hp g hg fun m hm => hl m (by simp [hm])
      refine ⟨r, g', false :: v, ?_, ?_, f3⟩
      · simp only [follow, hd, e, Res.bind_ok, Option.isSome_none, Bool.false_eq_true, if_false, f1]
      · simp only [playAll, e, Res.bind_ok, f2]; rfl

/-- C82: the total is a function of the position as far as repetition is concerned: not of the move
number, nor of the moves that led to it. -/
theorem C82_same (p q : PartialPosition) (h : p.SamePosition q) : p.evaluate A T = q.evaluate A T := by
  obtain ⟨L, K, h1, -, h2, h3, -, h4⟩ := lists
  unfold evaluate
  rw [h1, h3, h.side]
  have e1 : ∀ s ∈ L, p.piece_at s = q.piece_at s := fun s hs => h.board s ((h2 s).1 hs)
  have e2 : ∀ x, p.hand x = q.hand x := fun x => by unfold hand; simp only [h.hands]
  simp only [Res.bind_ok, e2]
  congr 1
  exact collect_congr fun s hs => by rw [e1 s hs]

/-- C82: and nothing less would do: if two positions get the same total whatever is counted how, they
are the same as far as repetition is concerned. -/
theorem C82_determined (p q : PartialPosition) (hp : ApiReach p) (hq : ApiReach q) (g : G) (hg : g ≠ A.zero) :
    p.SamePosition q ↔ ∀ T, p.evaluate A T = q.evaluate A T := by
  refine ⟨fun h T => C82_same A T p q h, fun h => ?_⟩
  obtain ⟨L, K, h1, hL, h2, h3, hK, h4⟩ := lists
  obtain ⟨b, n, r⟩ := reads p hp
  obtain ⟨b', n', r'⟩ := reads q hq
  have h : ∀ T, _ := fun T => Res.ok.inj ((evaluate_ok A T r h1 h2 h3 h4).symm.trans
    ((h T).trans (evaluate_ok A T r' h1 h2 h3 h4)))
  -- one square
  have board : ∀ {b b' : Square → Option Piece} {n n' : Color → PieceKind → U8} {c c' : Color},
      (∀ T : Tariff G, A.add (A.add (A.sum (L.map (worth A T b)))
          (A.sum ((Color.all.flatMap fun c => K.map fun k => (c, k)).map (kept T n)))) (T.turn c) =
        A.add (A.add (A.sum (L.map (worth A T b')))
          (A.sum ((Color.all.flatMap fun c => K.map fun k => (c, k)).map (kept T n')))) (T.turn c')) →
      ∀ s ∈ L, ∀ x, b s = some x → b' s = some x := by
    intro b b' n n' c c' h s hs x hx
    have := h ⟨fun u y => if u = s ∧ y = x then g else A.zero, fun _ _ _ => A.zero, fun _ => A.zero⟩
    have k0 : ∀ n : Color → PieceKind → U8, kept (G := G) ⟨fun u y => if u = s ∧ y = x then g else A.zero,
        fun _ _ _ => A.zero, fun _ => A.zero⟩ n = fun _ => A.zero := fun _ => rfl
    have w : ∀ b : Square → Option Piece, A.sum (L.map (worth A ⟨fun u y => if u = s ∧ y = x then g else A.zero,
        fun _ _ _ => A.zero, fun _ => A.zero⟩ b)) = if b s = some x then g else A.zero := by
      intro b
      rw [A.sum_single hL hs]
      · unfold worth
        cases e : b s with
        | none => simp
        | some y => simp
      · intro u _ hu
        unfold worth
        split
        · rfl
        · exact if_neg fun h => hu h.1
    rw [w, w, k0, k0, A.sum_zero, A.add_zero, A.add_zero, A.add_zero, A.add_zero, if_pos hx] at this
    by_cases e : b' s = some x
    · exact e
    · rw [if_neg e] at this; exact absurd this hg
  have w0 : ∀ (f : Color → PieceKind → U8 → G) (t : Color → G) (b : Square → Option Piece),
      A.sum (L.map (worth A ⟨fun _ _ => A.zero, f, t⟩ b)) = A.zero := by
    intro f t b
    have : worth A ⟨fun _ _ => A.zero, f, t⟩ b = fun _ => A.zero := by
      funext s; unfold worth; cases b s <;> rfl
    rw [this, A.sum_zero]
  refine ⟨fun s hs => ?_, fun c => ?_, ?_⟩
  · rw [r.board s hs, r'.board s hs]
    have e1 := board h s ((h2 s).2 hs)
    have e2 := board (fun T => (h T).symm) s ((h2 s).2 hs)
    cases e : b s with
    | some x => rw [e1 x e]
    | none =>
      cases e' : b' s with
      | none => rfl
      | some x => rw [e2 x e'] at e; cases e
  · rw [hand_of_a_player_ok, hand_of_a_player_ok]
    congr 1
    refine Hand.ext_cells (fun k hk => ?_) (((reach_ok hp).hand c).trans ((reach_ok hq).hand c).symm)
    have o : ∀ {p : PartialPosition} {b n}, Reads p b n → (p.handOf c).cell k hk = n c k := by
      intro p b n r
      have := r.hands c k hk
      rw [hand_ok, Hand.count_ok, dif_pos hk] at this
      exact Option.some.inj (Res.ok.inj this)
    rw [o r, o r']
    have := h ⟨fun _ _ => A.zero, fun d l m => if (d, l) = (c, k) ∧ m = n c k then g else A.zero, fun _ => A.zero⟩
    have w : ∀ m : Color → PieceKind → U8, A.sum ((Color.all.flatMap fun c => K.map fun k => (c, k)).map
        (kept ⟨fun _ _ => A.zero, fun d l m => if (d, l) = (c, k) ∧ m = n c k then g else A.zero, fun _ => A.zero⟩ m)) =
        if m c k = n c k then g else A.zero := by
      intro m
      rw [A.sum_single hK ((h4 c k).2 hk)]
      · unfold kept; simp
      · intro u _ hu
        exact if_neg fun h => hu h.1
    rw [w0, w0, w, w, A.zero_add, A.zero_add, A.add_zero, A.add_zero, if_pos rfl] at this
    by_cases e : n' c k = n c k
    · exact e.symm
    · rw [if_neg e] at this; exact absurd this hg
  · have := h ⟨fun _ _ => A.zero, fun _ _ _ => A.zero, fun c => if c = p.side_to_move then g else A.zero⟩
    have k0 : ∀ n : Color → PieceKind → U8, kept (G := G) ⟨fun _ _ => A.zero, fun _ _ _ => A.zero,
        fun c => if c = p.side_to_move then g else A.zero⟩ n = fun _ => A.zero := fun _ => rfl
    rw [w0, w0, k0, k0, A.sum_zero, A.zero_add, A.zero_add, A.zero_add] at this
    by_cases e : q.side_to_move = p.side_to_move
    · exact e.symm
    · simp only [if_true, if_neg e] at this; exact absurd this hg

/-- C82: with C77, the total does not depend on the order in which moves were played. -/
theorem C82_transpose (p q q' : PartialPosition) (hp : ApiReach p) (l l' : List Move)
    (hl : Game.From p l q) (hl' : Game.From p l' q') (h : SameOrder l l') :
    q.evaluate A T = q'.evaluate A T :=
  C82_same A T q q' (C77_transpose p q q' hp l l' hl hl' h).1

/-- Non-vacuity: counting pieces, Black's for and White's against. -/
private def material : Tariff Int where
  piece _ x := if x.val.toNat ≤ 14 then 1 else -1
  held c _ n := match c with | .Black => n.toNat | .White => -n.toNat
  turn _ := 0

private def opening : List Move :=
  [.Normal (Square.at 7 7) (Square.at 7 6) false, .Normal (Square.at 3 3) (Square.at 3 4) false,
    .Normal (Square.at 8 8) (Square.at 2 2) true, .Normal (Square.at 5 5) (Square.at 5 6) false,
    .Normal (Square.at 3 1) (Square.at 2 2) false, .Drop (Piece.mk' .Bishop .Black) (Square.at 5 5)]

private theorem opening_table : ∀ d : Build,
    (@startpos ⟨d⟩ >>= fun p => @evaluate _ Ledger.score material ⟨d⟩ p) = .ok 0 ∧
    (@startpos ⟨d⟩ >>= fun p => (do return (← @follow _ Ledger.score material ⟨d⟩ p 0 (opening.take 4)).2)) = .ok 2 ∧
    (@startpos ⟨d⟩ >>= fun p => (do return (← @follow _ Ledger.score material ⟨d⟩ p 0 opening).2)) = .ok 0 := by
  decide +kernel

/-- A bishop takes a bishop (and White's attempt to move a piece that is not there is ignored), the
silver takes back, and the bishop in hand is dropped. -/
example : ∃ p q g v, startpos = .ok p ∧ p.evaluate Ledger.score material = .ok 0 ∧
    p.follow Ledger.score material 0 (opening.take 4) = .ok (q, g) ∧ p.playAll (opening.take 4) = .ok (q, v) ∧
    q.evaluate Ledger.score material = .ok g ∧ g = 2 := by
  obtain ⟨p, hp⟩ : ∃ p, startpos = .ok p := ⟨_, startpos_ok⟩
  obtain ⟨h1, h2, -⟩ := opening_table P.build
  change (startpos >>= fun p => p.evaluate Ledger.score material) = .ok 0 at h1
  change (startpos >>= fun p => (do return (← p.follow Ledger.score material 0 (opening.take 4)).2)) = .ok 2 at h2
  rw [hp, Res.bind_ok] at h1 h2
  obtain ⟨q, g, v, e1, e2, e3⟩ := C82_follow Ledger.score material p (.startpos hp) 0 h1 (opening.take 4) (by decide)
  rw [e1] at h2
  exact ⟨p, q, g, v, hp, h1, e1, e2, e3, Res.ok.inj h2⟩

end ShogiCore
