import Verif.Spec.Order
import Verif.Lemmas.Hand

namespace ShogiCore

namespace TotalOrder

variable {α β : Type} {f g : α → α → Ordering}

theorem refl (h : TotalOrder f) (a : α) : f a a = .eq := by
  have := h.swap a a
  cases e : f a a <;> rw [e] at this <;> first | rfl | cases this

theorem left (h : TotalOrder f) {a b : α} (e : f a b = .eq) (c : α) : f a c = f b c := by
  have e' : f b a = .eq := by rw [h.swap a b, e]; rfl
  have h1 := h.trans a b c (by rw [e]; simp)
  have h2 := h.trans b a c (by rw [e']; simp)
  have h3 := fun x => h.trans c b a x (by rw [e']; simp)
  have h4 := fun x => h.trans c a b x (by rw [e]; simp)
  rw [h.swap b c, h.swap a c] at h3
  rw [h.swap b c, h.swap a c] at h4
  revert h1 h2 h3 h4
  cases f a c <;> cases f b c <;> simp [Ordering.swap]

theorem right (h : TotalOrder f) {a b : α} (e : f a b = .eq) (c : α) : f c a = f c b := by
  rw [h.swap a c, h.swap b c, h.left e]

theorem lt_trans (h : TotalOrder f) {a b c : α} (h1 : f a b ≠ .gt) (h2 : f b c ≠ .gt)
    (h3 : f a b = .lt ∨ f b c = .lt) : f a c = .lt := by
  have h4 := h.trans a b c h1 h2
  cases e : f a c with
  | lt => rfl
  | gt => exact absurd e h4
  | eq =>
    have e1 := h.left e b
    have e2 := h.swap b c
    rw [← e1] at e2
    revert e2 h1 h2 h3
    cases f a b <;> cases f b c <;> simp [Ordering.swap]

theorem andThen (hf : TotalOrder f) (hg : TotalOrder g) :
    TotalOrder fun a b => (f a b).then (g a b) where
  swap a b := by
    rw [hf.swap a b, hg.swap a b]
    cases f a b <;> cases g a b <;> rfl
  trans a b c h1 h2 := by
    have key : ∀ x y : Ordering, x.then y ≠ .gt ↔ x = .lt ∨ (x = .eq ∧ y ≠ .gt) := by
      intro x y; cases x <;> cases y <;> simp [Ordering.then]
    rw [key] at h1 h2 ⊢
    rcases h1 with h1 | ⟨h1, h1'⟩
    · left
      apply hf.lt_trans (b := b) (by rw [h1]; simp) _ (.inl h1)
      rcases h2 with h2 | ⟨h2, _⟩ <;> rw [h2] <;> simp
    · rcases h2 with h2 | ⟨h2, h2'⟩
      · left; rw [hf.left h1]; exact h2
      · right; exact ⟨by rw [hf.left h1]; exact h2, hg.trans a b c h1' h2'⟩

theorem on (h : TotalOrder f) (k : β → α) : TotalOrder fun a b => f (k a) (k b) where
  swap _ _ := h.swap _ _
  trans _ _ _ := h.trans _ _ _

theorem list (h : TotalOrder f) : TotalOrder (cmpList f) where
  swap a := by
    induction a with
    | nil => intro b; cases b <;> rfl
    | cons x a ih =>
      intro b
      cases b with
      | nil => rfl
      | cons y b =>
        rw [cmpList, cmpList, ih b, h.swap x y]
        cases f x y <;> cases cmpList f a b <;> rfl
  trans a := by
    have key : ∀ x y : Ordering, x.then y ≠ .gt ↔ x = .lt ∨ (x = .eq ∧ y ≠ .gt) := by
      intro x y; cases x <;> cases y <;> simp [Ordering.then]
    induction a with
    | nil => intro b c _ _; cases c <;> simp [cmpList]
    | cons x a ih =>
      intro b c h1 h2
      cases b with
      | nil => simp [cmpList] at h1
      | cons y b =>
        cases c with
        | nil => simp [cmpList] at h2
        | cons z c =>
          rw [cmpList, key] at h1 h2 ⊢
          rcases h1 with h1 | ⟨h1, h1'⟩
          · left
            apply h.lt_trans (b := y) (by rw [h1]; simp) _ (.inl h1)
            rcases h2 with h2 | ⟨h2, _⟩ <;> rw [h2] <;> simp
          · rcases h2 with h2 | ⟨h2, h2'⟩
            · left; rw [h.left h1]; exact h2
            · right; exact ⟨by rw [h.left h1]; exact h2, ih b c h1' h2'⟩

end TotalOrder

theorem cmpNat_order : TotalOrder (fun a b : Nat => compare a b) where
  swap a b := by
    rw [Nat.compare_swap]
  trans a b c := by
    simp only [ne_eq, Nat.compare_eq_gt]; omega

theorem cmpInt_order {n : Nat} : TotalOrder (cmpInt (n := n)) := cmpNat_order.on BitVec.toNat

theorem cmpBool_order : TotalOrder cmpBool := cmpNat_order.on Bool.toNat

theorem cmpInt_eq {n : Nat} (a b : BitVec n) : cmpInt a b = .eq ↔ a = b := by
  unfold cmpInt
  rw [Nat.compare_eq_eq]
  exact ⟨BitVec.eq_of_toNat_eq, congrArg _⟩

theorem cmpBool_eq (a b : Bool) : cmpBool a b = .eq ↔ a = b := by
  cases a <;> cases b <;> decide

theorem cmpList_eq {α : Type} {f : α → α → Ordering} (h : ∀ a b, f a b = .eq ↔ a = b) (l l' : List α) :
    cmpList f l l' = .eq ↔ l = l' := by
  induction l generalizing l' with
  | nil => cases l' <;> simp [cmpList]
  | cons a l ih =>
    cases l' with
    | nil => simp [cmpList]
    | cons b l' =>
      rw [cmpList, List.cons.injEq, ← h, ← ih]
      cases f a b <;> simp [Ordering.then]

theorem then_eq (x y : Ordering) : x.then y = .eq ↔ x = .eq ∧ y = .eq := by
  cases x <;> cases y <;> simp [Ordering.then]

theorem eqList_eq {α : Type} {f : α → α → Bool} (h : ∀ a b, f a b = true ↔ a = b) (l l' : List α) :
    eqList f l l' = true ↔ l = l' := by
  induction l generalizing l' with
  | nil => cases l' <;> simp [eqList]
  | cons a l ih =>
    cases l' with
    | nil => simp [eqList]
    | cons b l' => rw [eqList, Bool.and_eq_true, h, ih, List.cons.injEq]

theorem toList_eq {α : Type} {n : Nat} (a b : Vector α n) : a.toList = b.toList ↔ a = b :=
  Vector.toList_inj

/-! ### Moves and positions -/

theorem Hand.cmp_eq (a b : Hand) : a.cmp b = .eq ↔ a = b := by
  unfold Hand.cmp
  rw [cmpList_eq cmpInt_eq, toList_eq]
  exact ⟨Hand.ext', congrArg _⟩

theorem Hand.cmp_order : TotalOrder Hand.cmp := cmpInt_order.list.on fun h : Hand => h.cells.toList

theorem Square.cmp_eq (a b : Square) : a.cmp b = .eq ↔ a = b := by
  unfold Square.cmp; rw [cmpInt_eq]; cases a; cases b; simp
theorem Piece.cmp_eq (a b : Piece) : a.cmp b = .eq ↔ a = b := by
  unfold Piece.cmp; rw [cmpInt_eq]; cases a; cases b; simp
theorem OptionPiece.cmp_eq (a b : OptionPiece) : a.cmp b = .eq ↔ a = b := by
  unfold OptionPiece.cmp; rw [cmpInt_eq]; cases a; cases b; simp
theorem OptionCompactMove.cmp_eq (a b : OptionCompactMove) : a.cmp b = .eq ↔ a = b := by
  unfold OptionCompactMove.cmp; rw [cmpInt_eq]; cases a; cases b; simp
theorem OptionGameResolution.cmp_eq (a b : OptionGameResolution) : a.cmp b = .eq ↔ a = b := by
  unfold OptionGameResolution.cmp; rw [cmpInt_eq]; cases a; cases b; simp
theorem Color.cmp_eq (a b : Color) : a.cmp b = .eq ↔ a = b := by
  cases a <;> cases b <;> decide

theorem Square.cmp_order : TotalOrder Square.cmp := cmpInt_order.on fun a : Square => a.val
theorem Piece.cmp_order : TotalOrder Piece.cmp := cmpInt_order.on fun a : Piece => a.val
theorem OptionPiece.cmp_order : TotalOrder OptionPiece.cmp := cmpInt_order.on fun a : OptionPiece => a.val
theorem OptionCompactMove.cmp_order : TotalOrder OptionCompactMove.cmp :=
  cmpInt_order.on fun a : OptionCompactMove => a.val
theorem OptionGameResolution.cmp_order : TotalOrder OptionGameResolution.cmp :=
  cmpInt_order.on fun a : OptionGameResolution => a.val
theorem Color.cmp_order : TotalOrder Color.cmp := cmpInt_order.on Color.toU8

theorem Move.cmp_eq (a b : Move) : a.cmp b = .eq ↔ a = b := by
  cases a <;> cases b <;>
    simp [Move.cmp, Square.cmp_eq, Piece.cmp_eq, cmpBool_eq]

/-- Moves in the order of `Move.cmp`: variant, then the fields. -/
def Move.key : Move → Nat × U8 × U8 × Bool
  | .Normal s t p => (0, s.val, t.val, p)
  | .Drop p t => (1, p.val, t.val, false)

theorem Move.cmp_order : TotalOrder Move.cmp := by
  have h : TotalOrder fun a b : Nat × U8 × U8 × Bool =>
      (compare a.1 b.1).then ((cmpInt a.2.1 b.2.1).then
        ((cmpInt a.2.2.1 b.2.2.1).then (cmpBool a.2.2.2 b.2.2.2))) :=
    (cmpNat_order.on fun a : Nat × U8 × U8 × Bool => a.1).andThen
      ((cmpInt_order.on fun a : Nat × U8 × U8 × Bool => a.2.1).andThen
        ((cmpInt_order.on fun a : Nat × U8 × U8 × Bool => a.2.2.1).andThen
          (cmpBool_order.on fun a : Nat × U8 × U8 × Bool => a.2.2.2)))
  have e : Move.cmp = fun a b => (fun a b : Nat × U8 × U8 × Bool =>
      (compare a.1 b.1).then ((cmpInt a.2.1 b.2.1).then
        ((cmpInt a.2.2.1 b.2.2.1).then (cmpBool a.2.2.2 b.2.2.2)))) a.key b.key := by
    funext a b
    cases a <;> cases b
    · rfl
    · rfl
    · rfl
    · rename_i p t q u
      show (cmpInt p.val q.val).then (cmpInt t.val u.val) = _
      show _ = Ordering.eq.then ((cmpInt p.val q.val).then ((cmpInt t.val u.val).then .eq))
      cases cmpInt p.val q.val <;> cases cmpInt t.val u.val <;> rfl
  rw [e]; exact h.on Move.key

namespace PartialPosition

theorem cmp_order : TotalOrder PartialPosition.cmp :=
  (Color.cmp_order.on fun p : PartialPosition => p.side).andThen <|
  (cmpInt_order.on fun p : PartialPosition => p.ply).andThen <|
  (Hand.cmp_order.list.on fun p : PartialPosition => p.hands.toList).andThen <|
  (OptionPiece.cmp_order.list.on fun p : PartialPosition => p.board.toList).andThen <|
  OptionCompactMove.cmp_order.on fun p : PartialPosition => p.last_move

theorem cmp_eq (a b : PartialPosition) : a.cmp b = .eq ↔
    a.side = b.side ∧ a.ply = b.ply ∧ a.hands = b.hands ∧ a.board = b.board ∧
      a.last_move = b.last_move := by
  unfold PartialPosition.cmp
  simp only [then_eq, Color.cmp_eq, cmpInt_eq, cmpList_eq Hand.cmp_eq, cmpList_eq OptionPiece.cmp_eq,
    OptionCompactMove.cmp_eq, toList_eq]

theorem eq_iff (a b : PartialPosition) : a.eq b = true ↔ a = b := by
  unfold PartialPosition.eq
  simp only [Bool.and_eq_true, beq_iff_eq, eqList_eq Hand.eq_iff,
    eqList_eq (f := fun x y : OptionPiece => x == y) (fun _ _ => beq_iff_eq),
    eqList_eq (f := fun x y : Bitboard => x == y) (fun _ _ => beq_iff_eq),
    eqList_eq (f := fun x y : OptionSquare => x == y) (fun _ _ => beq_iff_eq), toList_eq]
  constructor
  · rintro ⟨⟨⟨⟨⟨⟨⟨h1, h2⟩, h3⟩, h4⟩, h5⟩, h6⟩, h7⟩, h8⟩
    cases a; cases b; simp_all
  · rintro rfl; simp

end PartialPosition

theorem Position.eq_iff (a b : Position) : a.eq b = true ↔ a = b := by
  unfold Position.eq
  simp only [Bool.and_eq_true, PartialPosition.eq_iff,
    eqList_eq (f := fun x y : Move => x == y) (fun _ _ => beq_iff_eq)]
  cases a; cases b; simp [and_assoc]

theorem PartialGame.eq_iff (a b : PartialGame) : a.eq b = true ↔ a = b := by
  unfold PartialGame.eq
  simp only [Bool.and_eq_true, PartialPosition.eq_iff, beq_iff_eq]
  cases a; cases b; simp

theorem Game.eq_iff (a b : Game) : a.eq b = true ↔ a = b := by
  unfold Game.eq
  simp only [Bool.and_eq_true, Position.eq_iff, beq_iff_eq]
  cases a; cases b; simp

theorem Position.cmp_order : TotalOrder Position.cmp :=
  (PartialPosition.cmp_order.on fun p : Position => p.initial).andThen <|
  (PartialPosition.cmp_order.on fun p : Position => p.inner).andThen <|
  Move.cmp_order.list.on fun p : Position => p.moves

theorem PartialGame.cmp_order : TotalOrder PartialGame.cmp :=
  (PartialPosition.cmp_order.on fun p : PartialGame => p.inner).andThen (OptionGameResolution.cmp_order.on fun p : PartialGame => p.resolution)

theorem Game.cmp_order : TotalOrder Game.cmp :=
  (Position.cmp_order.on fun p : Game => p.inner).andThen (OptionGameResolution.cmp_order.on fun p : Game => p.resolution)


/-! ### Hash data -/

/-- The hash data of a value determine the value up to `R`, whatever follows them. -/
def Pf {α : Type} (h : α → List HashOp) (R : α → α → Prop) : Prop :=
  ∀ a b r s, h a ++ r = h b ++ s → R a b ∧ r = s

namespace Pf

variable {α β : Type} {h g : α → List HashOp} {R S : α → α → Prop}

theorem app (hh : Pf h R) (hg : Pf g S) : Pf (fun a => h a ++ g a) (fun a b => R a b ∧ S a b) := by
  intro a b r s e
  simp only [List.append_assoc] at e
  obtain ⟨h1, e⟩ := hh _ _ _ _ e
  obtain ⟨h2, e⟩ := hg _ _ _ _ e
  exact ⟨⟨h1, h2⟩, e⟩

theorem on (hh : Pf h R) (k : β → α) : Pf (fun a => h (k a)) (fun a b => R (k a) (k b)) :=
  fun _ _ _ _ e => hh _ _ _ _ e

theorem mono (hh : Pf h R) (m : ∀ a b, R a b → S a b) : Pf h S :=
  fun _ _ _ _ e => ⟨m _ _ (hh _ _ _ _ e).1, (hh _ _ _ _ e).2⟩

theorem single (f : α → HashOp) (hf : ∀ a b, f a = f b → R a b) : Pf (fun a => [f a]) R := by
  intro a b r s e
  simp only [List.cons_append, List.nil_append, List.cons.injEq] at e
  exact ⟨hf _ _ e.1, e.2⟩

theorem flat (hh : Pf h (· = ·)) (l l' : List α) (hl : l.length = l'.length) (r s : List HashOp)
    (e : l.flatMap h ++ r = l'.flatMap h ++ s) : l = l' ∧ r = s := by
  induction l generalizing l' with
  | nil =>
    cases l' with
    | nil => exact ⟨rfl, by simpa using e⟩
    | cons => simp at hl
  | cons a l ih =>
    cases l' with
    | nil => simp at hl
    | cons b l' =>
      simp only [List.flatMap_cons, List.append_assoc] at e
      obtain ⟨e1, e2⟩ := hh _ _ _ _ e
      obtain ⟨e3, e4⟩ := ih l' (by simpa using hl) e2
      exact ⟨by rw [e1, e3], e4⟩

theorem list (hh : Pf h (· = ·)) : Pf (hashList h) (· = ·) := by
  intro l l' r s e
  simp only [hashList, List.cons_append, List.cons.injEq, HashOp.len.injEq] at e
  exact hh.flat l l' e.1 r s e.2

theorem iff (hh : Pf h R) (hr : ∀ a b, R a b → h a = h b) (a b : α) : h a = h b ↔ R a b := by
  constructor
  · intro e; exact (hh a b [] [] (by rw [e])).1
  · exact hr a b

end Pf

theorem Color.hash_pf : Pf Color.hash (· = ·) :=
  Pf.single (fun a : Color => HashOp.discr a.toU8.toNat) fun a b => by
    cases a <;> cases b <;> decide
theorem PieceKind.hash_pf : Pf PieceKind.hash (· = ·) :=
  Pf.single (fun a : PieceKind => HashOp.discr a.toU8.toNat) fun a b => by
    revert a b; decide +kernel
theorem GameResolution.hash_pf : Pf GameResolution.hash (· = ·) :=
  Pf.single (fun a : GameResolution => HashOp.discr a.toU8.toNat) fun a b => by
    cases a <;> cases b <;> decide
theorem IllegalMoveKind.hash_pf : Pf IllegalMoveKind.hash (· = ·) :=
  Pf.single (fun a : IllegalMoveKind => HashOp.discr a.toU8.toNat) fun a b => by
    cases a <;> cases b <;> decide
theorem PositionStatus.hash_pf : Pf PositionStatus.hash (· = ·) :=
  Pf.single (fun a : PositionStatus => HashOp.discr a.toU8.toNat) fun a b => by
    cases a <;> cases b <;> decide
theorem Square.hash_pf : Pf Square.hash (· = ·) :=
  Pf.single (fun a : Square => HashOp.u8 a.val) fun a b e => by
    cases a; cases b; simpa using e
theorem OptionSquare.hash_pf : Pf OptionSquare.hash (· = ·) :=
  Pf.single (fun a : OptionSquare => HashOp.u8 a.val) fun a b e => by
    cases a; cases b; simpa using e
theorem Piece.hash_pf : Pf Piece.hash (· = ·) :=
  Pf.single (fun a : Piece => HashOp.u8 a.val) fun a b e => by
    cases a; cases b; simpa using e
theorem OptionPiece.hash_pf : Pf OptionPiece.hash (· = ·) :=
  Pf.single (fun a : OptionPiece => HashOp.u8 a.val) fun a b e => by
    cases a; cases b; simpa using e
theorem CompactMove.hash_pf : Pf CompactMove.hash (· = ·) :=
  Pf.single (fun a : CompactMove => HashOp.u16 a.val) fun a b e => by
    cases a; cases b; simpa using e
theorem OptionCompactMove.hash_pf : Pf OptionCompactMove.hash (· = ·) :=
  Pf.single (fun a : OptionCompactMove => HashOp.u16 a.val) fun a b e => by
    cases a; cases b; simpa using e
theorem OptionGameResolution.hash_pf : Pf OptionGameResolution.hash (· = ·) :=
  Pf.single (fun a : OptionGameResolution => HashOp.u8 a.val) fun a b e => by
    cases a; cases b; simpa using e
theorem ResultUnitIllegalMoveKind.hash_pf : Pf ResultUnitIllegalMoveKind.hash (· = ·) :=
  Pf.single (fun a : ResultUnitIllegalMoveKind => HashOp.u8 a.val) fun a b e => by
    cases a; cases b; simpa using e
theorem Hand.hash_pf : Pf Hand.hash (· = ·) := by
  intro a b r s e
  simp only [Hand.hash, List.cons_append, List.nil_append, List.cons.injEq, HashOp.bytes.injEq,
    true_and, toList_eq] at e
  exact ⟨Hand.ext' e.1, e.2⟩
theorem words_pf : Pf (fun v : U64 => [HashOp.u64 v]) (· = ·) :=
  Pf.single HashOp.u64 fun a b e => by simpa using e
theorem Bitboard.hash_pf : Pf Bitboard.hash (· = ·) := by
  intro a b r s e
  obtain ⟨h, e⟩ := words_pf.list _ _ _ _ e
  cases a; cases b; simp_all
theorem ByteSwappedBitboard.hash_pf : Pf ByteSwappedBitboard.hash (· = ·) := by
  intro a b r s e
  obtain ⟨h, e⟩ := words_pf.list _ _ _ _ e
  cases a; cases b; simp_all
theorem Move.hash_pf : Pf Move.hash (· = ·) := by
  intro a b r s e
  cases a <;> cases b <;>
    simp only [Move.hash, Square.hash, Piece.hash, List.cons_append, List.nil_append,
      List.cons.injEq, HashOp.u8.injEq, HashOp.discr.injEq] at e
  · rename_i x y p x' y' p'
    obtain ⟨_, h1, h2, h3, rfl⟩ := e
    cases x; cases y; cases x'; cases y'
    cases p <;> cases p' <;> simp_all
  · simp at e
  · simp at e
  · rename_i x y x' y'
    obtain ⟨_, h1, h2, rfl⟩ := e
    cases x; cases y; cases x'; cases y'
    simp_all

theorem PartialPosition.hash_pf : Pf PartialPosition.hash (fun a b => a.cmp b = .eq) := by
  have h1 := Color.hash_pf.on PartialPosition.side
  have h2 : Pf (fun p : PartialPosition => [HashOp.u16 p.ply]) (fun a b => a.ply = b.ply) :=
    Pf.single _ fun a b e => by simpa using e
  have h3 := Hand.hash_pf.list.on fun p : PartialPosition => p.hands.toList
  have h4 := OptionPiece.hash_pf.list.on fun p : PartialPosition => p.board.toList
  have h5 := OptionCompactMove.hash_pf.on PartialPosition.last_move
  refine ((((h1.app h2).app h3).app h4).app h5).mono ?_
  rintro a b ⟨⟨⟨⟨e1, e2⟩, e3⟩, e4⟩, e5⟩
  exact (PartialPosition.cmp_eq a b).2
    ⟨e1, e2, (toList_eq _ _).1 e3, (toList_eq _ _).1 e4, e5⟩

theorem PartialPosition.hash_of_cmp (a b : PartialPosition) (h : a.cmp b = .eq) : a.hash = b.hash := by
  obtain ⟨h1, h2, h3, h4, h5⟩ := (PartialPosition.cmp_eq a b).1 h
  unfold PartialPosition.hash
  rw [h1, h2, h3, h4, h5]

theorem Position.cmp_eq (a b : Position) : a.cmp b = .eq ↔
    a.initial.cmp b.initial = .eq ∧ a.inner.cmp b.inner = .eq ∧ a.moves = b.moves := by
  unfold Position.cmp
  rw [then_eq, then_eq, cmpList_eq Move.cmp_eq]

theorem Position.hash_pf : Pf Position.hash (fun a b => a.cmp b = .eq) := by
  refine (((PartialPosition.hash_pf.on Position.initial).app
    (PartialPosition.hash_pf.on Position.inner)).app (Move.hash_pf.list.on Position.moves)).mono ?_
  rintro a b ⟨⟨h1, h2⟩, h3⟩
  exact (Position.cmp_eq a b).2 ⟨h1, h2, h3⟩

theorem Position.hash_of_cmp (a b : Position) (h : a.cmp b = .eq) : a.hash = b.hash := by
  obtain ⟨h1, h2, h3⟩ := (Position.cmp_eq a b).1 h
  unfold Position.hash
  rw [PartialPosition.hash_of_cmp _ _ h1, PartialPosition.hash_of_cmp _ _ h2, h3]

theorem PartialGame.cmp_eq (a b : PartialGame) : a.cmp b = .eq ↔
    a.inner.cmp b.inner = .eq ∧ a.resolution = b.resolution := by
  unfold PartialGame.cmp
  rw [then_eq, OptionGameResolution.cmp_eq]

theorem Game.cmp_eq (a b : Game) : a.cmp b = .eq ↔
    a.inner.cmp b.inner = .eq ∧ a.resolution = b.resolution := by
  unfold Game.cmp
  rw [then_eq, OptionGameResolution.cmp_eq]

theorem PartialGame.hash_pf : Pf PartialGame.hash (fun a b => a.cmp b = .eq) := by
  refine ((PartialPosition.hash_pf.on PartialGame.inner).app
    (OptionGameResolution.hash_pf.on PartialGame.resolution)).mono ?_
  rintro a b ⟨h1, h2⟩
  exact (PartialGame.cmp_eq a b).2 ⟨h1, h2⟩

theorem PartialGame.hash_of_cmp (a b : PartialGame) (h : a.cmp b = .eq) : a.hash = b.hash := by
  obtain ⟨h1, h2⟩ := (PartialGame.cmp_eq a b).1 h
  unfold PartialGame.hash
  rw [PartialPosition.hash_of_cmp _ _ h1, h2]

theorem Game.hash_pf : Pf Game.hash (fun a b => a.cmp b = .eq) := by
  refine ((Position.hash_pf.on Game.inner).app
    (OptionGameResolution.hash_pf.on Game.resolution)).mono ?_
  rintro a b ⟨h1, h2⟩
  exact (Game.cmp_eq a b).2 ⟨h1, h2⟩

theorem Game.hash_of_cmp (a b : Game) (h : a.cmp b = .eq) : a.hash = b.hash := by
  obtain ⟨h1, h2⟩ := (Game.cmp_eq a b).1 h
  unfold Game.hash
  rw [Position.hash_of_cmp _ _ h1, h2]

end ShogiCore
