import Verif.Spec.Reorder
import Verif.Props.Decode

/- C77: the same moves in another order. -/

set_option linter.unusedSectionVars false

namespace ShogiCore
open PartialPosition

variable [P : Profile]

/-! ### What moves do, whether they are accepted or not -/

/-- Board and hands. -/
private structure View where
  board : Nat → Option Piece
  hand : Color → PieceKind → U8

/-- What the move puts on the square with index `i`, if it touches it. -/
private def View.patch (b : Nat → Option Piece) (i : Nat) : Move → Option (Option Piece)
  | .Normal s t pr =>
    if i = t.idx0 then some ((b s.idx0).map fun x =>
      Piece.mk' ((if pr then (kindOfPiece x).promote else none).getD (kindOfPiece x)) (colorOfPiece x))
    else if i = s.idx0 then some none else none
  | .Drop x t => if i = t.idx0 then some (some x) else none

/-- What the move adds to hands. -/
private def View.gain (b : Nat → Option Piece) (c : Color) (k : PieceKind) : Move → U8
  | .Normal s t _ =>
    match b s.idx0, b t.idx0 with
    | some x, some y => if c = colorOfPiece x ∧ k = (kindOfPiece y).base then 1 else 0
    | _, _ => 0
  | .Drop x _ => if c = colorOfPiece x ∧ k = kindOfPiece x then -1 else 0

private def View.act (v : View) (m : Move) : View where
  board i := (View.patch v.board i m).getD (v.board i)
  hand c k := v.hand c k + View.gain v.board c k m

private def Move.Apart (m m' : Move) : Prop := ∀ s ∈ m.touches, s ∉ m'.touches

private theorem Move.Apart.symm {m m' : Move} (h : m.Apart m') : m'.Apart m :=
  fun s h1 h2 => h s h2 h1

omit P in
private theorem patch_none {m : Move} {i : Nat} (h : ∀ s ∈ m.touches, i ≠ s.idx0)
    (b : Nat → Option Piece) : View.patch b i m = none := by
  cases m with
  | Normal s t pr =>
    rw [View.patch, if_neg (h t (by simp [Move.touches])), if_neg (h s (by simp [Move.touches]))]
  | Drop x t => rw [View.patch, if_neg (h t (by simp [Move.touches]))]

omit P in
private theorem local_act {m : Move} {b b' : Nat → Option Piece}
    (h : ∀ s ∈ m.touches, b s.idx0 = b' s.idx0) :
    (∀ i, View.patch b i m = View.patch b' i m) ∧ ∀ c k, View.gain b c k m = View.gain b' c k m := by
  cases m with
  | Normal s t pr =>
    simp only [View.patch, View.gain, h s (by simp [Move.touches]), h t (by simp [Move.touches]),
      implies_true, and_self]
  | Drop x t => exact ⟨fun _ => rfl, fun _ _ => rfl⟩

private theorem touches_valid {m : Move} (hm : m.Valid) {s : Square} (h : s ∈ m.touches) : s.Valid := by
  cases m with
  | Normal s t pr =>
    simp only [Move.touches, List.mem_cons, List.not_mem_nil, or_false] at h
    rcases h with rfl | rfl
    · exact hm.1
    · exact hm.2
  | Drop x t =>
    simp only [Move.touches, List.mem_cons, List.not_mem_nil, or_false] at h
    rw [h]; exact hm.2

private theorem act_comm (v : View) {m m' : Move} (hm : m.Valid) (hm' : m'.Valid)
    (h : m.Apart m') : (v.act m).act m' = (v.act m').act m := by
  have away : ∀ {m m' : Move}, m.Valid → m'.Valid → m.Apart m' → ∀ s ∈ m'.touches,
      (v.act m).board s.idx0 = v.board s.idx0 := by
    intro m m' hm hm' h s hs
    show (View.patch v.board s.idx0 m).getD (v.board s.idx0) = v.board s.idx0
    rw [patch_none, Option.getD_none]
    intro t ht e
    rw [Square.idx0_inj (touches_valid hm' hs) (touches_valid hm ht) e] at hs
    exact h t ht hs
  have l1 := local_act (away hm hm' h)
  have l2 := local_act (away hm' hm h.symm)
  have : ∀ w w' : View, w.board = w'.board → w.hand = w'.hand → w = w' := by
    rintro ⟨⟩ ⟨⟩ h1 h2; cases h1; cases h2; rfl
  apply this
  · funext i
    show (View.patch (v.act m).board i m').getD ((View.patch v.board i m).getD (v.board i)) =
      (View.patch (v.act m').board i m).getD ((View.patch v.board i m').getD (v.board i))
    rw [l1.1, l2.1]
    by_cases hi : ∀ s ∈ m.touches, i ≠ s.idx0
    · rw [patch_none hi]; rfl
    · rw [patch_none (m := m')]; · rfl
      intro t ht e
      apply hi
      intro s hs e'
      rw [e] at e'
      rw [Square.idx0_inj (touches_valid hm' ht) (touches_valid hm hs) e'] at ht
      exact h s hs ht
  · funext c k
    show v.hand c k + View.gain v.board c k m + View.gain (v.act m).board c k m' =
      v.hand c k + View.gain v.board c k m' + View.gain (v.act m').board c k m
    rw [l1.2, l2.2, BitVec.add_assoc, BitVec.add_comm (View.gain v.board c k m), BitVec.add_assoc]

/-! ### Exchanging neighbours -/

private inductive Reordered : List Move → List Move → Prop
  | refl (l) : Reordered l l
  | swap (a b m m') : m.Apart m' → Reordered (a ++ m :: m' :: b) (a ++ m' :: m :: b)
  | trans {l l' l''} : Reordered l l' → Reordered l' l'' → Reordered l l''

private theorem Reordered.mem {l l' : List Move} (h : Reordered l l') (m : Move) :
    m ∈ l ↔ m ∈ l' := by
  induction h with
  | refl => exact Iff.rfl
  | swap a b x y _ =>
    simp only [List.mem_append, List.mem_cons]
    rw [or_left_comm (a := m = x)]
  | trans _ _ h1 h2 => exact h1.trans h2

private theorem Reordered.symm {l l' : List Move} (h : Reordered l l') : Reordered l' l := by
  induction h with
  | refl => exact .refl _
  | swap a b x y h => exact .swap a b y x h.symm
  | trans _ _ h1 h2 => exact h2.trans h1

private theorem Reordered.cons {l l' : List Move} (h : Reordered l l') (m : Move) :
    Reordered (m :: l) (m :: l') := by
  induction h with
  | refl => exact .refl _
  | swap a b x y h => exact .swap (m :: a) b x y h
  | trans _ _ h1 h2 => exact h1.trans h2

private theorem Reordered.foldl {l l' : List Move} (h : Reordered l l') (v : View)
    (hv : ∀ m ∈ l, m.Valid) : l.foldl View.act v = l'.foldl View.act v := by
  induction h generalizing v with
  | refl => rfl
  | swap a b m m' hab =>
    simp only [List.foldl_append, List.foldl_cons]
    rw [act_comm _ (hv m (by simp)) (hv m' (by simp)) hab]
  | trans h1 _ i1 i2 => rw [i1 v hv, i2 v fun m hm => hv m ((h1.mem m).2 hm)]

private theorem Reordered.filter {l l' : List Move} (h : Reordered l l') (s : Square) :
    (l.filter fun m => decide (s ∈ m.touches)) = l'.filter fun m => decide (s ∈ m.touches) := by
  induction h with
  | refl => rfl
  | swap a b x y h =>
    simp only [List.filter_append, List.filter_cons]
    by_cases h1 : s ∈ x.touches
    · simp [h1, h s h1]
    · simp [h1]
  | trans _ _ h1 h2 => exact h1.trans h2

/-- A move apart from all before it can go first. -/
private theorem Reordered.front (a b : List Move) (m : Move) (h : ∀ x ∈ a, m.Apart x) :
    Reordered (m :: (a ++ b)) (a ++ m :: b) := by
  induction a with
  | nil => exact .refl _
  | cons x a ih =>
    exact (Reordered.swap [] (a ++ b) m x (h x (by simp))).trans
      ((ih fun y hy => h y (by simp [hy])).cons x)

omit P in
private theorem touches_some (m : Move) : ∃ s, s ∈ m.touches := by
  cases m with
  | Normal s t _ => exact ⟨s, by simp [Move.touches]⟩
  | Drop _ t => exact ⟨t, by simp [Move.touches]⟩

/-- Up to the first occurrence. -/
private theorem split_first {m : Move} {l : List Move} (h : m ∈ l) :
    ∃ a b, l = a ++ m :: b ∧ m ∉ a := by
  induction l with
  | nil => cases h
  | cons x l ih =>
    by_cases e : m = x
    · exact ⟨[], l, by simp [e], by simp⟩
    · obtain ⟨a, b, h1, h2⟩ := ih (by simpa [e] using h)
      exact ⟨x :: a, b, by simp [h1], by simp [e, h2]⟩

private theorem reordered_of {l l' : List Move} (h : SameOrder l l') : Reordered l l' := by
  induction l generalizing l' with
  | nil =>
    cases l' with
    | nil => exact .refl _
    | cons m l' =>
      obtain ⟨s, hs⟩ := touches_some m
      have := h s
      simp [hs] at this
  | cons m r ih =>
    have hin : m ∈ l' := by
      obtain ⟨s, hs⟩ := touches_some m
      have e := h s
      have : m ∈ (m :: r).filter fun m => decide (s ∈ m.touches) := by simp [hs]
      rw [e] at this
      exact (List.mem_filter.1 this).1
    obtain ⟨a, b, rfl, ha⟩ := split_first hin
    have ap : ∀ x ∈ a, m.Apart x := by
      intro x hx s h1 h2
      have e := h s
      rw [List.filter_cons_of_pos (by simpa using h1), List.filter_append] at e
      cases hf : a.filter fun m => decide (s ∈ m.touches) with
      | nil =>
        have := List.filter_eq_nil_iff.1 hf x hx
        simp [h2] at this
      | cons y ys =>
        rw [hf] at e
        have hy : y ∈ a.filter fun m => decide (s ∈ m.touches) := by rw [hf]; simp
        have : m = y := (List.cons.inj e).1
        exact ha (this ▸ (List.mem_filter.1 hy).1)
    have f := Reordered.front a b m ap
    refine Reordered.trans (.cons (ih ?_) m) f
    intro s
    have e := h s
    rw [← f.filter s] at e
    by_cases hs : s ∈ m.touches
    · rw [List.filter_cons_of_pos (by simpa using hs), List.filter_cons_of_pos (by simpa using hs)] at e
      exact (List.cons.inj e).2
    · rwa [List.filter_cons_of_neg (by simpa using hs), List.filter_cons_of_neg (by simpa using hs)] at e

/-! ### Games -/

private def view (p : PartialPosition) : View where
  board i := if i < 81 then p.cell i else none
  hand c k := if hk : k.InHand then (p.handOf c).cell k hk else 0

private theorem view_step {p q : PartialPosition} {m : Move} (hm : m.Valid) (f : p.Eff m q) :
    view q = (view p).act m := by
  have this : ∀ w w' : View, w.board = w'.board → w.hand = w'.hand → w = w' := by
    rintro ⟨⟩ ⟨⟩ h1 h2; cases h1; cases h2; rfl
  have f := f.body
  cases m with
  | Normal s t pr =>
    obtain ⟨k, k', a1, a2, a3, a4, a5, a6⟩ := f
    have is := Square.idx0_lt hm.1
    have it := Square.idx0_lt hm.2
    have hk' : (if pr then k.promote else none).getD k = k' := by
      cases pr
      · simp only [Bool.false_eq_true, if_false] at a2 ⊢; exact a2.symm
      · simp only [if_true] at a2 ⊢; rw [a2]; rfl
    apply this
    · funext i
      simp only [view, View.act, View.patch, is, a1, if_true, Option.map_some, kindOfPiece_mk',
        colorOfPiece_mk', hk']
      by_cases hi : i < 81
      · rw [if_pos hi, a4 i hi]
        split
        · rfl
        · split <;> simp
      · rw [if_neg hi, if_neg (by omega), if_neg (by omega)]; simp [hi]
    · funext c l
      simp only [view, View.act, View.gain, is, it, a1, if_true]
      rcases a6 with ⟨a6, a7⟩ | ⟨y, hy, a6, a7⟩
      · simp [a6, a7]
      · simp only [a6, a7, colorOfPiece_mk', kindOfPiece_mk']
        by_cases hl : l.InHand
        · by_cases hc : c = p.side
          · subst hc
            simp only [hl, dif_pos, if_true, true_and, Hand.bump, Hand.cell_setCell]
            by_cases e : y.base = l
            · subst e; simp
            · rw [if_neg e, if_neg (Ne.symm e)]; simp
          · simp [hl, hc]
        · rw [dif_neg hl, dif_neg hl, if_neg]; · rfl
          rintro ⟨_, rfl⟩
          exact hl hy
  | Drop x t =>
    obtain ⟨k, hk, rfl, a2, a3, a4, a5, a6⟩ := f
    have it := Square.idx0_lt (show t.Valid from hm.2)
    apply this
    · funext i
      simp only [view, View.act, View.patch]
      by_cases hi : i < 81
      · rw [if_pos hi, a4 i hi]
        split <;> simp
      · rw [if_neg hi, if_neg (by omega)]; simp [hi]
    · funext c l
      simp only [view, View.act, View.gain, a6, colorOfPiece_mk', kindOfPiece_mk']
      by_cases hl : l.InHand
      · by_cases hc : c = p.side
        · subst hc
          simp only [hl, dif_pos, if_true, true_and, Hand.drop, Hand.cell_setCell]
          by_cases e : k = l
          · subst e; simp [BitVec.sub_eq_add_neg]
          · rw [if_neg e, if_neg (Ne.symm e)]; simp
        · simp [hl, hc]
      · rw [dif_neg hl, dif_neg hl, if_neg]; · rfl
        rintro ⟨_, rfl⟩
        exact hl hk

private theorem eff_of {p q : PartialPosition} (hp : ApiReach p) {m : Move} (hm : m.Valid)
    (e : p.make_move m = .ok (q, some ())) : p.Eff m q := by
  rcases make_move_ok (reach_ok hp) hm with ⟨_, q1, e1, f⟩ | ⟨_, e1⟩
  · rw [e1] at e; cases e; exact f
  · rw [e1] at e; cases e

private theorem view_from {p q : PartialPosition} (hp : ApiReach p) {l : List Move}
    (h : Game.From p l q) : view q = l.foldl View.act (view p) ∧ ∀ m ∈ l, m.Valid := by
  induction h with
  | start => exact ⟨rfl, by simp⟩
  | accept h hm e ih =>
    refine ⟨?_, ?_⟩
    · rw [List.foldl_append, ← ih.1]
      exact view_step hm (eff_of (from_reach hp h) hm e)
    · intro x hx
      rcases List.mem_append.1 hx with hx | hx
      · exact ih.2 x hx
      · rw [List.mem_singleton.1 hx]; exact hm
  | reject h hm e ih =>
    rcases make_move_ok (reach_ok (from_reach hp h)) hm with ⟨_, q1, e1, f⟩ | ⟨_, e1⟩
    · rw [e1] at e; cases e
    · rw [e1] at e; cases e; exact ih

private theorem same_of_view {p q : PartialPosition} (hp : ApiReach p) (hq : ApiReach q)
    (h : view p = view q) (hs : p.side = q.side) : p.SamePosition q := by
  refine same_iff.2 ⟨fun i hi => ?_, fun c => ?_, hs⟩
  · have := congrFun (congrArg View.board h) i
    simpa [view, hi] using this
  · refine Hand.ext_cells (fun k hk => ?_) (((reach_ok hp).hand c).trans ((reach_ok hq).hand c).symm)
    have := congrFun (congrFun (congrArg View.hand h) c) k
    simpa [view, hk] using this

private theorem SameOrder.length {l l' : List Move} (h : SameOrder l l') : l.length = l'.length := by
  have := reordered_of h
  clear h
  induction this with
  | refl => rfl
  | swap => simp
  | trans _ _ h1 h2 => exact h1.trans h2

/-- C77: two games from one position in which, square by square, the same moves come by in the
same order lead to the same board, hands and side to move, and to the same move number. -/
theorem C77_transpose (p q q' : PartialPosition) (hp : ApiReach p) (l l' : List Move)
    (hl : Game.From p l q) (hl' : Game.From p l' q') (h : SameOrder l l') :
    q.SamePosition q' ∧ q.get_ply = q'.get_ply := by
  have b := C32_bookkeeping p q l hp hl
  have b' := C32_bookkeeping p q' l' hp hl'
  have f := view_from hp hl
  have f' := view_from hp hl'
  refine ⟨same_of_view (from_reach hp hl) (from_reach hp hl') ?_ ?_, BitVec.eq_of_toNat_eq ?_⟩
  · rw [f.1, f'.1, (reordered_of h).foldl _ f.2]
  · have e := b.1.trans ((congrArg _ h.length).trans b'.1.symm)
    exact e
  · rw [b.2, b'.2, h.length]

private theorem rejected {p q : PartialPosition} (hp : ApiReach p) {m : Move} (hm : m.Valid)
    (e : p.make_move m = .ok (q, none)) : q = p := by
  rcases make_move_ok (reach_ok hp) hm with ⟨_, q1, e1, f⟩ | ⟨_, e1⟩
  · rw [e1] at e; cases e
  · rw [e1] at e; cases e; rfl

private theorem from_tracked {p q : PartialPosition} (hp : ApiReach p) (ht : p.Tracked)
    {l : List Move} (h : Game.From p l q) : q.Tracked := by
  induction h with
  | start => exact ht
  | accept h hm e ih => exact tracked_move (from_reach hp h) ih hm e
  | reject h hm e ih => rw [rejected (from_reach hp h) hm e]; exact ih

/-- Where there is no king there was none, and `king_position` says what it always said. -/
private theorem from_kingless {p q : PartialPosition} (hp : ApiReach p) {l : List Move}
    (h : Game.From p l q) (c : Color) (hk : ∀ i < 81, q.cell i ≠ some (Piece.mk' .King c)) :
    q.kingOf c = p.kingOf c := by
  induction h with
  | start => rfl
  | @accept l q r m h hm e ih =>
    have f := (eff_of (from_reach hp h) hm e).body
    cases m with
    | Normal s t pr =>
      obtain ⟨k, k', a1, a2, a3, a4, a5, a6⟩ := f
      have is := Square.idx0_lt hm.1
      have it := Square.idx0_lt hm.2
      have nk : ¬(k' = .King ∧ c = q.side) := by
        rintro ⟨rfl, rfl⟩
        exact hk _ it (by rw [a4 _ it, if_pos rfl])
      rw [a5, if_neg nk]
      apply ih
      intro i hi e
      by_cases h1 : i = t.idx0
      · subst h1
        rcases a6 with ⟨a6, _⟩ | ⟨y, hy, a6, _⟩
        · rw [a6] at e; cases e
        · rw [a6] at e
          obtain ⟨rfl, _⟩ := Piece.mk'_inj (Option.some.inj e)
          exact absurd hy (by decide)
      · by_cases h2 : i = s.idx0
        · subst h2
          rw [a1] at e
          obtain ⟨rfl, rfl⟩ := Piece.mk'_inj (Option.some.inj e)
          cases pr
          · simp only [Bool.false_eq_true, if_false] at a2; exact nk ⟨a2, rfl⟩
          · simp only [if_true] at a2; cases a2
        · exact hk i hi (by rw [a4 i hi, if_neg h1, if_neg h2]; exact e)
    | Drop x t =>
      obtain ⟨k, hk', a1, a2, a3, a4, a5, a6⟩ := f
      rw [a5]
      apply ih
      intro i hi e
      refine hk i hi ?_
      rw [a4 i hi, if_neg]
      · exact e
      · rintro rfl; rw [a2] at e; cases e
  | reject h hm e ih =>
    rw [rejected (from_reach hp h) hm e] at hk ⊢
    exact ih hk

/-- C77: if moreover every king is the one `king_position` knows of (as in all games from the
starting position, C74), the two positions differ in their last moves at most. -/
theorem C77_alike (p q q' : PartialPosition) (hp : ApiReach p) (ht : p.Tracked) (l l' : List Move)
    (hl : Game.From p l q) (hl' : Game.From p l' q') (h : SameOrder l l') : q.AlikeButLast q' := by
  obtain ⟨hs, hn⟩ := C77_transpose p q q' hp l l' hl hl' h
  refine ⟨hs.board, hs.hands, hs.side, hn, fun c => ?_⟩
  by_cases hk : ∃ s : Square, s.Valid ∧ q.piece_at s = .ok (some (Piece.mk' .King c))
  · obtain ⟨s, h1, h2⟩ := hk
    rw [from_tracked hp ht hl c s h1 h2, from_tracked hp ht hl' c s h1 (hs.board s h1 ▸ h2)]
  · have no : ∀ i < 81, q.cell i ≠ some (Piece.mk' .King c) := by
      intro i hi e
      exact hk ⟨Square.ofIdx i, Square.ofIdx_valid hi, by
        rw [piece_at_ok q (Square.ofIdx_valid hi), Square.idx0_ofIdx hi, e]⟩
    rw [king_position_ok, king_position_ok, from_kingless hp hl c no,
      from_kingless hp hl' c fun i hi => by rw [← (same_iff.1 hs).1 i hi]; exact no i hi]

private theorem from_last {p q : PartialPosition} (hp : ApiReach p) {l : List Move}
    (h : Game.From p l q) : q.get_last_move = match l.getLast? with
      | none => p.get_last_move
      | some m => .ok (some m) := by
  induction h with
  | start => rfl
  | accept h hm e ih =>
    rw [List.getLast?_append]
    simp only [List.getLast?_singleton, Option.some_or]
    exact (C29_effect _ _ (from_reach hp h) _ hm e).last
  | reject h hm e ih => rw [rejected (from_reach hp h) hm e]; exact ih

/-- C77: and if the two games end with the same move, the positions are equal, also for `==`. -/
theorem C77_equal (p q q' : PartialPosition) (hp : ApiReach p) (ht : p.Tracked) (l l' : List Move)
    (hl : Game.From p l q) (hl' : Game.From p l' q') (h : SameOrder l l')
    (hm : l.getLast? = l'.getLast?) : q = q' ∧ q.eq q' = true := by
  have ha := C77_alike p q q' hp ht l l' hl hl' h
  have okq := reach_ok (from_reach hp hl)
  have okq' := reach_ok (from_reach hp hl')
  have e : q = q' := by
    obtain ⟨h1, h2, h3, h4, h5⟩ := alike_iff.1 ha
    refine okq.ext okq' h3 h4 h2 h1 (same_last okq okq' ?_) h5
    rw [from_last hp hl, from_last hp hl', hm]
  exact ⟨e, (PartialPosition.eq_iff q q').2 e⟩

/-- C77: in particular the order does not matter at all for moves of which no two touch the same
square. -/
theorem C77_any_order (p q q' : PartialPosition) (hp : ApiReach p) (l l' : List Move)
    (hl : Game.From p l q) (hl' : Game.From p l' q') (h : l.Perm l')
    (ha : l.Pairwise fun m m' => ∀ s ∈ m.touches, s ∉ m'.touches) :
    q.repetitionKey = q'.repetitionKey := by
  refine (C76_key q q' (from_reach hp hl) (from_reach hp hl')).2
    (C77_transpose p q q' hp l l' hl hl' fun s => ?_).1
  clear hl hl'
  have : ∀ l : List Move, (l.Pairwise fun m m' => ∀ s ∈ m.touches, s ∉ m'.touches) →
      (l.filter fun m => decide (s ∈ m.touches)).length ≤ 1 := by
    intro l h
    induction h with
    | nil => simp
    | @cons m l h1 _ ih =>
      by_cases hs : s ∈ m.touches
      · rw [List.filter_cons_of_pos (by simpa using hs), List.filter_eq_nil_iff.2]
        · simp
        · intro x hx; simpa using h1 x hx s hs
      · rw [List.filter_cons_of_neg (by simpa using hs)]; exact ih
  have h1 := this l ha
  have hp := h.filter fun m => decide (s ∈ m.touches)
  generalize (l.filter fun m => decide (s ∈ m.touches)) = a at h1 hp
  cases a with
  | nil => exact hp.nil_eq
  | cons m b =>
    cases b with
    | nil => exact (List.perm_singleton.1 hp.symm).symm
    | cons x b => simp at h1

/-! ### Concrete games -/

omit P in
private def nxt (p : PartialPosition) (m : Move) : PartialPosition :=
  match @make_move ⟨⟨false, .w64⟩⟩ p m with
  | .ok (q, _) => q
  | _ => p

private def g1 : Move := .Normal (Square.at 4 9) (Square.at 5 5) false
private def g2 : Move := .Normal (Square.at 5 3) (Square.at 5 5) false
private def g3 : Move := .Normal (Square.at 3 9) (Square.at 5 5) false

private def a1 := nxt sp0 g1
private def a2 := nxt a1 g2
private def a3 := nxt a2 g3
private def b1 := nxt sp0 g3
private def b2 := nxt b1 g2
private def b3 := nxt b2 g1

omit P in
private theorem table_ab : ∀ d : Build,
    (@make_move ⟨d⟩ sp0 g1 = .ok (a1, some ()) ∧ @make_move ⟨d⟩ a1 g2 = .ok (a2, some ()) ∧
     @make_move ⟨d⟩ a2 g3 = .ok (a3, some ())) ∧
    (@make_move ⟨d⟩ sp0 g3 = .ok (b1, some ()) ∧ @make_move ⟨d⟩ b1 g2 = .ok (b2, some ()) ∧
     @make_move ⟨d⟩ b2 g1 = .ok (b3, some ())) ∧
    @piece_at ⟨d⟩ a3 (Square.at 5 5) ≠ @piece_at ⟨d⟩ b3 (Square.at 5 5) := by decide +kernel

/-- C77: where moves meet on a square the order does matter: Gold to 5e, takes, Silver takes, or the
other way round. -/
theorem C77_refuted_meeting : ∃ p q q' l l', startpos = .ok p ∧ Game.From p l q ∧
    Game.From p l' q' ∧ l.Perm l' ∧ q.piece_at (Square.at 5 5) ≠ q'.piece_at (Square.at 5 5) ∧
    q.repetitionKey ≠ q'.repetitionKey := by
  obtain ⟨⟨e1, e2, e3⟩, ⟨f1, f2, f3⟩, ne⟩ := table_ab P.build
  have F : Game.From sp0 [g1, g2, g3] a3 := .accept (l := [_, _]) (.accept (l := [_])
    (.accept (l := []) .start (by decide) e1) (by decide) e2) (by decide) e3
  have F' : Game.From sp0 [g3, g2, g1] b3 := .accept (l := [_, _]) (.accept (l := [_])
    (.accept (l := []) .start (by decide) f1) (by decide) f2) (by decide) f3
  have hp : ApiReach sp0 := .startpos startpos_ok
  exact ⟨sp0, a3, b3, _, _, startpos_ok, F, F', by decide, ne, fun e =>
    ne (((C76_key a3 b3 (from_reach hp F) (from_reach hp F')).1 e).board _ (by decide))⟩

private def h1 : Move := .Normal (Square.at 7 7) (Square.at 7 6) false
private def h2 : Move := .Normal (Square.at 3 3) (Square.at 3 4) false
private def h3 : Move := .Normal (Square.at 2 7) (Square.at 2 6) false
private def h4 : Move := .Normal (Square.at 8 3) (Square.at 8 4) false

private def c1 := nxt sp0 h1
private def c2 := nxt c1 h2
private def c3 := nxt c2 h3
private def c4 := nxt c3 h4
private def d1 := nxt sp0 h3
private def d2 := nxt d1 h2
private def d3 := nxt d2 h1

omit P in
private theorem table_cd : ∀ d : Build,
    (@make_move ⟨d⟩ sp0 h1 = .ok (c1, some ()) ∧ @make_move ⟨d⟩ c1 h2 = .ok (c2, some ()) ∧
     @make_move ⟨d⟩ c2 h3 = .ok (c3, some ()) ∧ @make_move ⟨d⟩ c3 h4 = .ok (c4, some ())) ∧
    (@make_move ⟨d⟩ sp0 h3 = .ok (d1, some ()) ∧ @make_move ⟨d⟩ d1 h2 = .ok (d2, some ()) ∧
     @make_move ⟨d⟩ d2 h1 = .ok (d3, some ()) ∧ @make_move ⟨d⟩ d3 h4 = .ok (c4, some ())) ∧
    c3 ≠ d3 := by decide +kernel

/-- 7g7f 3c3d 2g2f and 2g2f 3c3d 7g7f: the same but for the last move; after 8c8d equal. -/
example : ∃ p q q' r, startpos = .ok p ∧ Game.From p [h1, h2, h3] q ∧ Game.From p [h3, h2, h1] q' ∧
    SameOrder [h1, h2, h3] [h3, h2, h1] ∧ q ≠ q' ∧ q.AlikeButLast q' ∧
    Game.From p [h1, h2, h3, h4] r ∧ Game.From p [h3, h2, h1, h4] r := by
  obtain ⟨⟨e1, e2, e3, e4⟩, ⟨f1, f2, f3, f4⟩, ne⟩ := table_cd P.build
  have F : Game.From sp0 [h1, h2, h3] c3 := .accept (l := [_, _]) (.accept (l := [_])
    (.accept (l := []) .start (by decide) e1) (by decide) e2) (by decide) e3
  have F' : Game.From sp0 [h3, h2, h1] d3 := .accept (l := [_, _]) (.accept (l := [_])
    (.accept (l := []) .start (by decide) f1) (by decide) f2) (by decide) f3
  have so : SameOrder [h1, h2, h3] [h3, h2, h1] := by
    intro s
    have key : ∀ x y z : Move, x.Apart y → x.Apart z → y.Apart z →
        ([x, y, z].filter fun m => decide (s ∈ m.touches)) =
          [z, y, x].filter fun m => decide (s ∈ m.touches) := by
      intro x y z a b c
      by_cases i1 : s ∈ x.touches
      · simp [i1, a s i1, b s i1]
      · by_cases i2 : s ∈ y.touches
        · simp [i1, i2, c s i2]
        · simp [List.filter_cons, i1, i2]
    exact key h1 h2 h3 (by unfold Move.Apart; decide) (by unfold Move.Apart; decide)
      (by unfold Move.Apart; decide)
  have hp : ApiReach sp0 := .startpos startpos_ok
  exact ⟨sp0, c3, d3, c4, startpos_ok, F, F', so, ne, C77_alike sp0 c3 d3 hp
    (C74_games _ ⟨sp0, [], startpos_ok, .start⟩) _ _ F F' so,
    .accept (l := [_, _, _]) F (by decide) e4, .accept (l := [_, _, _]) F' (by decide) f4⟩

end ShogiCore
