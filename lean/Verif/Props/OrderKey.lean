import Verif.Spec.OrderKey
import Verif.Lemmas.Order
import Verif.Props.Enumerate
import Verif.Props.Client

/- C70: what the orders are. -/

set_option linter.unusedSectionVars false

namespace ShogiCore
open PartialPosition

/-! ### Dictionary order -/

theorem lexNat_cons (a b : Nat) (as bs : List Nat) :
    lexNat (a :: as) (b :: bs) = (compare a b).then (lexNat as bs) := by
  simp only [lexNat]
  rcases Nat.lt_trichotomy a b with h | h | h
  · rw [if_pos h, Nat.compare_eq_lt.2 h]; rfl
  · subst h; rw [if_neg (Nat.lt_irrefl _), if_neg (Nat.lt_irrefl _), Nat.compare_eq_eq.2 rfl]; rfl
  · rw [if_neg (Nat.lt_asymm h), if_pos h, Nat.compare_eq_gt.2 h]; rfl

theorem lexNat_refl (l : List Nat) : lexNat l l = .eq := by
  induction l with
  | nil => rfl
  | cons a l ih => rw [lexNat_cons, ih, Nat.compare_eq_eq.2 rfl]; rfl

theorem then_assoc (x y z : Ordering) : (x.then y).then z = x.then (y.then z) := by
  cases x <;> rfl

theorem then_eq_right (x : Ordering) : x.then .eq = x := by cases x <;> rfl

theorem compare_radix {B a b r s : Nat} (hr : r < B) (hs : s < B) :
    compare (a * B + r) (b * B + s) = (compare a b).then (compare r s) := by
  rcases Nat.lt_trichotomy a b with h | h | h
  · have : (a + 1) * B ≤ b * B := Nat.mul_le_mul_right B h
    rw [Nat.add_mul] at this
    rw [Nat.compare_eq_lt.2 h, Nat.compare_eq_lt.2 (by omega)]; rfl
  · subst h
    rw [show compare a a = .eq from Nat.compare_eq_eq.2 rfl]
    show _ = compare r s
    rcases Nat.lt_trichotomy r s with h | h | h
    · rw [Nat.compare_eq_lt.2 h, Nat.compare_eq_lt.2 (by omega)]
    · rw [Nat.compare_eq_eq.2 h, Nat.compare_eq_eq.2 (by omega)]
    · rw [Nat.compare_eq_gt.2 h, Nat.compare_eq_gt.2 (by omega)]
  · have : (b + 1) * B ≤ a * B := Nat.mul_le_mul_right B h
    rw [Nat.add_mul] at this
    rw [Nat.compare_eq_gt.2 h, Nat.compare_eq_gt.2 (by omega)]; rfl

/-- The keys `k`, `l` decide as `o` does, and equal ones leave the decision to what follows. -/
def Codes (o : Ordering) (k l : List Nat) : Prop :=
  ∀ x y, lexNat (k ++ x) (l ++ y) = o.then (lexNat x y)

namespace Codes

theorem nil : Codes .eq [] [] := fun _ _ => rfl

theorem one (a b : Nat) : Codes (compare a b) [a] [b] := fun x y => lexNat_cons a b x y

theorem app {o o' k l k' l'} (h : Codes o k l) (h' : Codes o' k' l') :
    Codes (o.then o') (k ++ k') (l ++ l') := by
  intro x y
  rw [List.append_assoc, List.append_assoc, h, h', then_assoc]

theorem cons {o k l} (a b : Nat) (h : Codes o k l) : Codes ((compare a b).then o) (a :: k) (b :: l) :=
  (one a b).app h

theorem lex {o k l} (h : Codes o k l) : o = lexNat k l := by
  have := h [] []
  rw [List.append_nil, List.append_nil, show lexNat [] [] = .eq from rfl, then_eq_right] at this
  exact this.symm

/-- Lists of the same length, element by element. -/
theorem list {α : Type} {f : α → α → Ordering} {k : α → List Nat} :
    ∀ {l l' : List α}, l.length = l'.length →
      (∀ a ∈ l, ∀ b ∈ l', Codes (f a b) (k a) (k b)) →
      Codes (cmpList f l l') (l.map k).flatten (l'.map k).flatten
  | [], [], _, _ => nil
  | a :: l, b :: l', e, h => by
    rw [List.map_cons, List.map_cons, List.flatten_cons, List.flatten_cons]
    exact (h a (by simp) b (by simp)).app (list (by simpa using e)
      fun a ha b hb => h a (by simp [ha]) b (by simp [hb]))

/-- Lists of any lengths, with an end mark below every first number of a key. -/
theorem stream {α : Type} {f : α → α → Ordering} {k : α → List Nat}
    (hk : ∀ a, ∃ n r, k a = (n + 1) :: r) :
    ∀ {l l' : List α},
      (∀ a ∈ l, ∀ b ∈ l', Codes (f a b) (k a) (k b)) →
      Codes (cmpList f l l') ((l.map k).flatten ++ [0]) ((l'.map k).flatten ++ [0])
  | [], [], _ => one 0 0
  | [], b :: l', _ => by
    obtain ⟨n, r, e⟩ := hk b
    intro x y
    rw [List.map_cons, List.flatten_cons, e]
    show lexNat (0 :: x) ((n + 1) :: _) = _
    rw [lexNat_cons, Nat.compare_eq_lt.2 (Nat.succ_pos n)]; rfl
  | a :: l, [], _ => by
    obtain ⟨n, r, e⟩ := hk a
    intro x y
    rw [List.map_cons, List.flatten_cons, e]
    show lexNat ((n + 1) :: _) (0 :: y) = _
    rw [lexNat_cons, Nat.compare_eq_gt.2 (Nat.succ_pos n)]; rfl
  | a :: l, b :: l', h => by
    rw [List.map_cons, List.map_cons, List.flatten_cons, List.flatten_cons, List.append_assoc,
      List.append_assoc]
    exact (h a (by simp) b (by simp)).app (stream hk
      fun a ha b hb => h a (by simp [ha]) b (by simp [hb]))

end Codes

theorem mapM_ok {α β : Type} {f : α → Res β} {g : α → β} :
    ∀ {l : List α}, (∀ a ∈ l, f a = .ok (g a)) → l.mapM f = .ok (l.map g)
  | [], _ => rfl
  | a :: l, h => by
    rw [List.mapM_cons, h a (by simp), Res.bind_ok, mapM_ok fun b hb => h b (by simp [hb])]; rfl

/-! ### Squares, pieces, moves -/

variable [P : Profile]

def Square.pk (s : Square) : List Nat := [s.idx0 / 9 + 1, s.idx0 % 9 + 1]

theorem Square.key_ok {s : Square} (h : s.Valid) : s.orderKey = .ok s.pk := by
  have hi := idx0_lt h
  rw [orderKey, file_ok h, rank_ok h]
  simp only [Res.bind_ok, Res.pure_eq, pk, BitVec.toNat_ofNat]
  rw [Nat.mod_eq_of_lt (by omega), Nat.mod_eq_of_lt (by omega)]

theorem Square.codes {s t : Square} (hs : s.Valid) (ht : t.Valid) :
    Codes (s.cmp t) s.pk t.pk := by
  have e : s.cmp t = (compare (s.idx0 / 9 + 1) (t.idx0 / 9 + 1)).then
      ((compare (s.idx0 % 9 + 1) (t.idx0 % 9 + 1)).then .eq) := by
    have := compare_radix (B := 10) (a := s.idx0 / 9 + 1) (b := t.idx0 / 9 + 1)
      (r := s.idx0 % 9 + 1) (s := t.idx0 % 9 + 1) (by omega) (by omega)
    rw [then_eq_right, ← this]
    unfold Square.cmp cmpInt
    unfold Valid at hs ht
    unfold idx0
    rcases Nat.lt_trichotomy s.val.toNat t.val.toNat with h | h | h
    · rw [Nat.compare_eq_lt.2 h, Nat.compare_eq_lt.2 (by omega)]
    · rw [Nat.compare_eq_eq.2 h, Nat.compare_eq_eq.2 (by rw [h])]
    · rw [Nat.compare_eq_gt.2 h, Nat.compare_eq_gt.2 (by omega)]
  rw [e]
  exact .cons _ _ (.cons _ _ .nil)

def Piece.pk (p : Piece) : List Nat := [p.val.toNat / 16 + 1, p.val.toNat % 16]

omit P in
theorem Piece.pk_mk' (k : PieceKind) (c : Color) : (mk' k c).pk = [c.place, k.place] := by
  revert k c; decide +kernel

theorem Piece.key_ok {p : Piece} (h : p.Valid) : p.orderKey = .ok p.pk := by
  obtain ⟨k, c, rfl⟩ := exists_mk' h
  rw [orderKey, color_mk', piece_kind_mk', pk_mk']; rfl

omit P in
theorem Piece.codes (p q : Piece) : Codes (p.cmp q) p.pk q.pk := by
  have e : p.cmp q = (compare (p.val.toNat / 16 + 1) (q.val.toNat / 16 + 1)).then
      ((compare (p.val.toNat % 16) (q.val.toNat % 16)).then .eq) := by
    have := compare_radix (B := 16) (a := p.val.toNat / 16 + 1) (b := q.val.toNat / 16 + 1)
      (r := p.val.toNat % 16) (s := q.val.toNat % 16) (by omega) (by omega)
    rw [then_eq_right, ← this]
    unfold Piece.cmp cmpInt
    rcases Nat.lt_trichotomy p.val.toNat q.val.toNat with h | h | h
    · rw [Nat.compare_eq_lt.2 h, Nat.compare_eq_lt.2 (by omega)]
    · rw [Nat.compare_eq_eq.2 h, Nat.compare_eq_eq.2 (by rw [h])]
    · rw [Nat.compare_eq_gt.2 h, Nat.compare_eq_gt.2 (by omega)]
  rw [e]
  exact .cons _ _ (.cons _ _ .nil)

def Move.pk : Move → List Nat
  | .Normal s t pr => 1 :: (s.pk ++ (t.pk ++ [pr.toNat]))
  | .Drop p t => 2 :: (p.pk ++ t.pk)

theorem Move.key_ok {m : Move} (h : m.Valid) : m.orderKey = .ok m.pk := by
  cases m with
  | Normal s t pr =>
    rw [orderKey, Square.key_ok h.1, Square.key_ok h.2]
    simp [pk]
  | Drop p t =>
    rw [orderKey, Piece.key_ok h.1, Square.key_ok h.2]
    simp [pk]

theorem Move.codes {m n : Move} (hm : m.Valid) (hn : n.Valid) : Codes (m.cmp n) m.pk n.pk := by
  cases m with
  | Normal s t pr =>
    cases n with
    | Normal s' t' pr' =>
      exact .cons 1 1 ((Square.codes hm.1 hn.1).app ((Square.codes hm.2 hn.2).app (.one _ _)))
    | Drop p t' => intro x y; exact lexNat_cons 1 2 _ _
  | Drop p t =>
    cases n with
    | Normal s' t' pr' => intro x y; exact lexNat_cons 2 1 _ _
    | Drop p' t' => exact .cons 2 2 ((Piece.codes p p').app (Square.codes hm.2 hn.2))

def CompactMove.pk (c : CompactMove) : List Nat :=
  [c.val.toNat / 32768, c.val.toNat / 256 % 128, c.val.toNat / 128 % 2, c.val.toNat % 128]

theorem CompactMove.key_ok {c : CompactMove} (h : c.Valid) : c.orderKey = .ok c.pk := by
  obtain ⟨m, hm, he⟩ := h
  rw [orderKey, toMove_of_encodes hm he, Res.bind_ok]
  cases m with
  | Normal s t pr =>
    have h1 := hm.1; have h2 := hm.2
    simp only [Square.index_ok h1, Square.index_ok h2, Res.bind_ok, Res.pure_eq, pk]
    unfold encodes at he
    unfold Square.Valid at h1 h2
    simp only at he
    rw [he]
    cases pr <;> simp <;> omega
  | Drop p t =>
    have h1 := hm.1; have h2 := hm.2
    simp only [Square.index_ok h2, Res.bind_ok, Res.pure_eq, pk, Piece.as_u8]
    unfold encodes at he
    unfold Square.Valid at h2
    unfold Piece.Valid at h1
    simp only at he
    rw [he]
    simp; omega

def OptionCompactMove.pk (c : OptionCompactMove) : List Nat := CompactMove.pk ⟨c.val⟩

omit P in
theorem CompactMove.codes (c d : CompactMove) : Codes (c.cmp d) c.pk d.pk := by
  have h1 : ∀ v : Nat, v = ((v / 32768 * 128 + v / 256 % 128) * 2 + v / 128 % 2) * 128 + v % 128 := by
    omega
  have e : c.cmp d = (compare (c.val.toNat / 32768) (d.val.toNat / 32768)).then
      ((compare (c.val.toNat / 256 % 128) (d.val.toNat / 256 % 128)).then
        ((compare (c.val.toNat / 128 % 2) (d.val.toNat / 128 % 2)).then
          ((compare (c.val.toNat % 128) (d.val.toNat % 128)).then .eq))) := by
    unfold CompactMove.cmp cmpInt
    rw [h1 c.val.toNat, h1 d.val.toNat, compare_radix (by omega) (by omega),
      compare_radix (by omega) (by omega), compare_radix (by omega) (by omega), then_eq_right,
      then_assoc, then_assoc, ← h1, ← h1]
  rw [e]
  exact .cons _ _ (.cons _ _ (.cons _ _ (.cons _ _ .nil)))

/-! ### Hands and positions -/

omit P in
theorem vec8 {α : Type} (v : Vector α 8) :
    v.toList = [v[0], v[1], v[2], v[3], v[4], v[5], v[6], v[7]] := by
  rcases v with ⟨⟨l⟩, h⟩
  match l, h with
  | [_, _, _, _, _, _, _, _], _ => rfl

def Hand.pk (h : Hand) : List Nat :=
  [h.cells[0].toNat, h.cells[1].toNat, h.cells[2].toNat, h.cells[3].toNat, h.cells[4].toNat,
    h.cells[5].toNat, h.cells[6].toNat]

theorem Hand.key_ok (h : Hand) : h.orderKey = .ok h.pk := by
  have : h.orderKey = .ok (handKinds.map fun k =>
      ((if hk : k.InHand then some (h.cell k hk) else none).getD 0).toNat) := by
    apply mapM_ok
    intro k _
    rw [count_ok]; rfl
  rw [this]; rfl

omit P in
theorem Hand.codes {h g : Hand} (hh : h.Valid) (hg : g.Valid) : Codes (h.cmp g) h.pk g.pk := by
  have e7 : cmpInt h.cells[7] g.cells[7] = .eq := by
    rw [cmpInt_eq, show h.cells[7] = 0 from hh, show g.cells[7] = 0 from hg]
  rw [Hand.cmp, vec8, vec8]
  simp only [cmpList, e7]
  exact .cons _ _ (.cons _ _ (.cons _ _ (.cons _ _ (.cons _ _ (.cons _ _ (.cons _ _ .nil))))))

def OptionPiece.pk (o : OptionPiece) : List Nat :=
  if o.val = 0 then [0, 0] else Piece.pk ⟨o.val⟩

omit P in
theorem OptionPiece.codes (o o' : OptionPiece) : Codes (o.cmp o') o.pk o'.pk := by
  have pos : ∀ v : U8, v ≠ 0 → 0 < v.toNat := by
    intro v hv
    rcases Nat.eq_zero_or_pos v.toNat with h | h
    · exact absurd (BitVec.eq_of_toNat_eq h) hv
    · exact h
  unfold pk
  by_cases h : o.val = 0 <;> by_cases h' : o'.val = 0
  · rw [if_pos h, if_pos h', OptionPiece.cmp, h, h']
    exact .cons 0 0 (.cons 0 0 .nil)
  · rw [if_pos h, if_neg h', OptionPiece.cmp, cmpInt, h, show (0 : U8).toNat = 0 from rfl,
      Nat.compare_eq_lt.2 (pos _ h')]
    intro x y
    refine (lexNat_cons 0 (_ + 1) _ _).trans ?_
    rw [Nat.compare_eq_lt.2 (Nat.succ_pos _)]; rfl
  · rw [if_neg h, if_pos h', OptionPiece.cmp, cmpInt, h', show (0 : U8).toNat = 0 from rfl,
      Nat.compare_eq_gt.2 (pos _ h)]
    intro x y
    refine (lexNat_cons (_ + 1) 0 _ _).trans ?_
    rw [Nat.compare_eq_gt.2 (Nat.succ_pos _)]; rfl
  · rw [if_neg h, if_neg h']
    exact Piece.codes ⟨o.val⟩ ⟨o'.val⟩

namespace PartialPosition

def boardAt (p : PartialPosition) (i : Nat) : OptionPiece := if h : i < 81 then p.board[i] else ⟨0⟩

omit P in
theorem board_toList (p : PartialPosition) : p.board.toList = (List.range 81).map p.boardAt := by
  apply List.ext_getElem
  · simp
  · intro i h1 h2
    have : i < 81 := by simpa using h1
    simp [boardAt, this]

theorem squareKey_ok {p : PartialPosition} (hp : p.Ok) {s : Square} (hs : s.Valid) :
    p.squareKey s = .ok (p.boardAt s.idx0).pk := by
  have hi := Square.idx0_lt hs
  have hc := hp.cells s.idx0
  rw [squareKey, piece_at_ok p hs, Res.bind_ok]
  unfold cell at *
  rw [dif_pos hi] at *
  unfold boardAt OptionPiece.pk
  rw [dif_pos hi]
  unfold OptionPiece.toOption at *
  by_cases h : p.board[s.idx0].val = 0
  · rw [if_pos h, if_pos h]; rfl
  · rw [if_neg h] at hc
    rw [if_neg h, if_neg h]
    exact Piece.key_ok (hc _ rfl)

def pk (p : PartialPosition) : List Nat :=
  p.side.place :: p.ply.toNat :: ((p.handOf .Black).pk ++ ((p.handOf .White).pk ++
    ((p.board.toList.map OptionPiece.pk).flatten ++ p.last_move.pk)))

theorem key_ok {p : PartialPosition} (hp : p.Ok) : p.orderKey = .ok p.pk := by
  have hl : p.lastKey = .ok p.last_move.pk := by
    have := hp.last
    unfold lastKey last_compact_move OptionCompactMove.toOption at *
    by_cases h : p.last_move.val = 0
    · simp [h, OptionCompactMove.pk, CompactMove.pk]
    · simp only [h, if_false] at *
      exact CompactMove.key_ok (this _ rfl)
  have hb : allSquares.mapM p.squareKey =
      .ok (allSquares.map fun s => (p.boardAt s.idx0).pk) :=
    mapM_ok fun s hs => squareKey_ok hp (mem_allSquares hs)
  have he : (allSquares.map fun s => (p.boardAt s.idx0).pk) = p.board.toList.map OptionPiece.pk := by
    rw [board_toList, allSquares_eq, List.map_map, List.map_map]
    apply List.map_congr_left
    intro i hi
    simp only [Function.comp]
    rw [Square.idx0_ofIdx (List.mem_range.1 hi)]
  rw [orderKey, hand_of_a_player_ok, hand_of_a_player_ok, hb, he]
  simp only [Res.bind_ok, Hand.key_ok]
  rw [hl]
  simp only [Res.bind_ok, Res.pure_eq, pk, List.append_assoc, List.cons_append, List.nil_append]
  rfl

theorem codes {p q : PartialPosition} (hp : p.Ok) (hq : q.Ok) : Codes (p.cmp q) p.pk q.pk := by
  have hh : ∀ r : PartialPosition, r.hands.toList = [r.handOf .Black, r.handOf .White] := by
    intro r
    unfold handOf
    rcases r.hands with ⟨⟨l⟩, h⟩
    match l, h with
    | [_, _], _ => rfl
  have e : p.cmp q = (compare p.side.place q.side.place).then
      ((compare p.ply.toNat q.ply.toNat).then
        (((p.handOf .Black).cmp (q.handOf .Black)).then (((p.handOf .White).cmp (q.handOf .White)).then
          ((cmpList OptionPiece.cmp p.board.toList q.board.toList).then
            (p.last_move.cmp q.last_move))))) := by
    unfold PartialPosition.cmp
    rw [hh, hh]
    simp only [cmpList, then_assoc]
    have : p.side.cmp q.side = compare p.side.place q.side.place := by
      cases p.side <;> cases q.side <;> rfl
    rw [this]; rfl
  rw [e]
  exact .cons _ _ (.cons _ _ ((Hand.codes (hp.hand _) (hq.hand _)).app
    ((Hand.codes (hp.hand _) (hq.hand _)).app
      ((Codes.list (by simp) fun a _ b _ => OptionPiece.codes a b).app
        (CompactMove.codes ⟨p.last_move.val⟩ ⟨q.last_move.val⟩)))))

end PartialPosition

def Position.pk (p : Position) : List Nat :=
  p.initial.pk ++ (p.inner.pk ++ ((p.moves.map Move.pk).flatten ++ [0]))

theorem Position.key_ok {p : Position} (h1 : p.initial.Ok) (h2 : p.inner.Ok)
    (h3 : ∀ m ∈ p.moves, m.Valid) : p.orderKey = .ok p.pk := by
  have : p.get_moves.mapM Move.orderKey = .ok (p.moves.map Move.pk) :=
    mapM_ok fun m hm => Move.key_ok (h3 m hm)
  rw [orderKey, show p.initial_position = p.initial from rfl, show p.get_inner = p.inner from rfl,
    PartialPosition.key_ok h1, PartialPosition.key_ok h2, this]
  simp [pk]

theorem Position.codes {p q : Position} (h1 : p.initial.Ok) (h2 : p.inner.Ok)
    (h3 : ∀ m ∈ p.moves, m.Valid) (g1 : q.initial.Ok) (g2 : q.inner.Ok)
    (g3 : ∀ m ∈ q.moves, m.Valid) : Codes (p.cmp q) p.pk q.pk := by
  refine (PartialPosition.codes h1 g1).app ((PartialPosition.codes h2 g2).app ?_)
  apply Codes.stream
  · intro m; cases m
    · exact ⟨0, _, rfl⟩
    · exact ⟨1, _, rfl⟩
  · exact fun m hm n hn => Move.codes (h3 m hm) (g3 n hn)

def resKey (o : OptionGameResolution) : Nat := o.val.toNat

theorem resKey_ok {o : OptionGameResolution} {r : Option GameResolution} (h : o.toOption = .ok r) :
    (r.map GameResolution.place).getD 0 = resKey o := by
  have : ∀ (v : U8) (r : Option GameResolution), (⟨v⟩ : OptionGameResolution).toOption = .ok r →
      (r.map GameResolution.place).getD 0 = v.toNat := by
    apply forall_u8
    have : ∀ i : Fin 256, (match (⟨BitVec.ofNat 8 i⟩ : OptionGameResolution).toOption with
        | .ok r => decide ((r.map GameResolution.place).getD 0 = (BitVec.ofNat 8 i).toNat)
        | _ => true) = true := by decide +kernel
    intro i r e
    have := this i
    rw [e] at this
    simpa using this
  exact this o.val r h

/-! ### C70 -/

omit P in
/-- C70: the enumerations are ordered as declared. -/
theorem C70_enums :
    (∀ a b : Color, a.cmp b = compare a.place b.place) ∧
    (∀ a b : PieceKind, a.cmp b = compare a.place b.place) ∧
    (∀ a b : GameResolution, a.cmp b = compare a.place b.place) ∧
    (∀ a b : IllegalMoveKind, a.cmp b = compare a.place b.place) ∧
    (∀ a b : PositionStatus, a.cmp b = compare a.place b.place) := by
  refine ⟨?_, ?_, ?_, ?_, ?_⟩ <;> intro a b <;> cases a <;> cases b <;> rfl

/-- C70: squares are ordered by file, then rank; pieces by owner, then kind. -/
theorem C70_squares_pieces :
    (∀ s t : Square, s.Valid → t.Valid → OrderedBy Square.cmp Square.orderKey s t) ∧
    (∀ p q : Piece, p.Valid → q.Valid → OrderedBy Piece.cmp Piece.orderKey p q) :=
  ⟨fun _ _ hs ht => ⟨_, _, Square.key_ok hs, Square.key_ok ht, (Square.codes hs ht).lex⟩,
   fun _ _ hp hq => ⟨_, _, Piece.key_ok hp, Piece.key_ok hq, (Piece.codes _ _).lex⟩⟩

/-- C70: moves and compact moves. -/
theorem C70_moves :
    (∀ m n : Move, m.Valid → n.Valid → OrderedBy Move.cmp Move.orderKey m n) ∧
    (∀ c d : CompactMove, c.Valid → d.Valid → OrderedBy CompactMove.cmp CompactMove.orderKey c d) :=
  ⟨fun _ _ hm hn => ⟨_, _, Move.key_ok hm, Move.key_ok hn, (Move.codes hm hn).lex⟩,
   fun _ _ hc hd => ⟨_, _, CompactMove.key_ok hc, CompactMove.key_ok hd, (CompactMove.codes _ _).lex⟩⟩

/-- C70: hands are ordered by the number of pawns, then lances, and so on. -/
theorem C70_hands (h g : Hand) (hh : h.Valid) (hg : g.Valid) :
    OrderedBy Hand.cmp Hand.orderKey h g :=
  ⟨_, _, Hand.key_ok h, Hand.key_ok g, (Hand.codes hh hg).lex⟩

omit P in
theorem lexNat_le : ∀ {k l : List Nat}, k.length = l.length →
    (∀ i (h : i < k.length) (h' : i < l.length), k[i] ≤ l[i]) → lexNat k l ≠ .gt
  | [], [], _, _ => by simp [lexNat]
  | a :: k, b :: l, e, h => by
    rw [lexNat_cons]
    have h0 : a ≤ b := h 0 (by simp) (by simp)
    have ih := lexNat_le (k := k) (l := l) (by simpa using e)
      fun i hi hi' => h (i + 1) (by simpa using hi) (by simpa using hi')
    rcases Nat.lt_or_ge a b with h1 | h1
    · rw [Nat.compare_eq_lt.2 h1]; simp
    · rw [Nat.compare_eq_eq.2 (Nat.le_antisymm h0 h1)]; exact ih

/-- C70: a hand with at most as many pieces of every kind is never greater. -/
theorem C70_hands_monotone (h g : Hand) (hh : h.Valid) (hg : g.Valid)
    (hle : ∀ k n m, h.count k = .ok (some n) → g.count k = .ok (some m) → n.toNat ≤ m.toNat) :
    h.cmp g ≠ .gt := by
  rw [(Hand.codes hh hg).lex]
  have c : ∀ k (hk : k.InHand), (h.cell k hk).toNat ≤ (g.cell k hk).toNat := by
    intro k hk
    refine hle k _ _ ?_ ?_ <;> rw [Hand.count_ok, dif_pos hk]
  refine lexNat_le (show h.pk.length = g.pk.length from rfl) ?_
  intro i hi hi'
  match i, hi with
  | 0, _ => exact c .Pawn trivial
  | 1, _ => exact c .Lance trivial
  | 2, _ => exact c .Knight trivial
  | 3, _ => exact c .Silver trivial
  | 4, _ => exact c .Gold trivial
  | 5, _ => exact c .Bishop trivial
  | 6, _ => exact c .Rook trivial

/-- C70: positions are ordered by side to move, ply, Black's hand, White's hand, the board square
by square, the last move. -/
theorem C70_positions (p q : PartialPosition) (hp : ApiReach p) (hq : ApiReach q) :
    OrderedBy PartialPosition.cmp PartialPosition.orderKey p q :=
  ⟨_, _, PartialPosition.key_ok (reach_ok hp), PartialPosition.key_ok (reach_ok hq),
    (PartialPosition.codes (reach_ok hp) (reach_ok hq)).lex⟩

theorem From_codes {p p' : PartialPosition} (hp : ApiReach p) (hp' : ApiReach p') {l l' : List Move}
    {Q R : Position} (hQ : Position.From p l Q) (hR : Position.From p' l' R) :
    Q.orderKey = .ok Q.pk ∧ R.orderKey = .ok R.pk ∧ Codes (Q.cmp R) Q.pk R.pk := by
  obtain ⟨a1, a2, _, a4, a5⟩ := C33_replay p hp l Q hQ
  obtain ⟨b1, b2, _, b4, b5⟩ := C33_replay p' hp' l' R hR
  have h1 : Q.initial.Ok := by rw [← show Q.initial_position = Q.initial from rfl, a1]; exact reach_ok hp
  have g1 : R.initial.Ok := by rw [← show R.initial_position = R.initial from rfl, b1]; exact reach_ok hp'
  have h3 : ∀ m ∈ Q.moves, m.Valid := by
    intro m hm; exact a4 m (by rw [← a2]; exact hm)
  have g3 : ∀ m ∈ R.moves, m.Valid := by
    intro m hm; exact b4 m (by rw [← b2]; exact hm)
  exact ⟨Position.key_ok h1 (reach_ok a5) h3, Position.key_ok g1 (reach_ok b5) g3,
    Position.codes h1 (reach_ok a5) h3 g1 (reach_ok b5) g3⟩

/-- C70: game records are ordered by where they began, where they are, and then by the moves, a
record before its continuations. -/
theorem C70_records (p p' : PartialPosition) (hp : ApiReach p) (hp' : ApiReach p') (l l' : List Move)
    (Q R : Position) (hQ : Position.From p l Q) (hR : Position.From p' l' R) :
    OrderedBy Position.cmp Position.orderKey Q R := by
  obtain ⟨h1, h2, h3⟩ := From_codes hp hp' hQ hR
  exact ⟨_, _, h1, h2, h3.lex⟩

/-- C70: games are ordered by record (or position), and then by resolution, unfinished first. -/
theorem C70_games :
    (∀ (p p' : PartialPosition) (l l' : List Move) (g h : Game) (r r' : Option GameResolution),
      ApiReach p → ApiReach p' → Position.From p l g.position → Position.From p' l' h.position →
      g.get_resolution = .ok r → h.get_resolution = .ok r' → OrderedBy Game.cmp Game.orderKey g h) ∧
    (∀ (g h : PartialGame) (r r' : Option GameResolution), ApiReach g.position → ApiReach h.position →
      g.get_resolution = .ok r → h.get_resolution = .ok r' →
      OrderedBy PartialGame.cmp PartialGame.orderKey g h) := by
  refine ⟨?_, ?_⟩
  · intro p p' l l' g h r r' hp hp' hg hh er er'
    obtain ⟨h1, h2, h3⟩ := From_codes hp hp' hg hh
    refine ⟨g.position.pk ++ [resKey g.resolution], h.position.pk ++ [resKey h.resolution], ?_, ?_,
      (h3.app (.one _ _)).lex⟩
    · rw [Game.orderKey, h1, er]; simp [resKey_ok er]
    · rw [Game.orderKey, h2, er']; simp [resKey_ok er']
  · intro g h r r' hg hh er er'
    refine ⟨g.position.pk ++ [resKey g.resolution], h.position.pk ++ [resKey h.resolution], ?_, ?_,
      ((PartialPosition.codes (reach_ok hg) (reach_ok hh)).app (.one _ _)).lex⟩
    · rw [PartialGame.orderKey, PartialPosition.key_ok (reach_ok hg), er]; simp [resKey_ok er]
    · rw [PartialGame.orderKey, PartialPosition.key_ok (reach_ok hh), er']; simp [resKey_ok er']

omit P in
theorem cmpInt_zero {n : Nat} {v w : BitVec n} (hv : 0 < v.toNat) (hw : 0 < w.toNat) :
    cmpInt 0#n v = .lt ∧ cmpInt w 0#n = .gt := by
  unfold cmpInt
  rw [BitVec.toNat_zero]
  exact ⟨Nat.compare_eq_lt.2 hv, Nat.compare_eq_gt.2 hw⟩

omit P in
/-- C70: the C-compatible option types are ordered as `Option` is, `None` first, and the result
type with `Ok` first. -/
theorem C70_options :
    (∀ a b : Option Square, (∀ x, a = some x → x.Valid) → (∀ x, b = some x → x.Valid) →
      (OptionSquare.ofOption a).cmp (OptionSquare.ofOption b) = optCmp Square.cmp a b) ∧
    (∀ a b : Option Piece, (∀ x, a = some x → x.Valid) → (∀ x, b = some x → x.Valid) →
      (OptionPiece.ofOption a).cmp (OptionPiece.ofOption b) = optCmp Piece.cmp a b) ∧
    (∀ a b : Option CompactMove, (∀ x, a = some x → x.Valid) → (∀ x, b = some x → x.Valid) →
      (OptionCompactMove.ofOption a).cmp (OptionCompactMove.ofOption b) =
        optCmp CompactMove.cmp a b) ∧
    (∀ a b : Option GameResolution,
      (OptionGameResolution.ofOption a).cmp (OptionGameResolution.ofOption b) =
        optCmp GameResolution.cmp a b) ∧
    (∀ a b : Except IllegalMoveKind Unit,
      (ResultUnitIllegalMoveKind.ofResult a).cmp (ResultUnitIllegalMoveKind.ofResult b) =
        okCmp IllegalMoveKind.cmp a b) := by
  refine ⟨?_, ?_, ?_, ?_, ?_⟩
  · intro a b ha hb
    have pos : ∀ s : Square, s.Valid → 0 < s.val.toNat := fun s h => h.1
    rcases a with _ | a <;> rcases b with _ | b
    · rfl
    · exact (cmpInt_zero (pos b (hb b rfl)) (pos b (hb b rfl))).1
    · exact (cmpInt_zero (pos a (ha a rfl)) (pos a (ha a rfl))).2
    · rfl
  · intro a b ha hb
    have pos : ∀ s : Piece, s.Valid → 0 < s.val.toNat := fun s h => by unfold Piece.Valid at h; omega
    rcases a with _ | a <;> rcases b with _ | b
    · rfl
    · exact (cmpInt_zero (pos b (hb b rfl)) (pos b (hb b rfl))).1
    · exact (cmpInt_zero (pos a (ha a rfl)) (pos a (ha a rfl))).2
    · rfl
  · intro a b ha hb
    have pos : ∀ s : CompactMove, s.Valid → 0 < s.val.toNat := by
      rintro s ⟨m, hm, he⟩
      cases m with
      | Normal x y pr =>
        have := hm.2.1
        simp only [CompactMove.encodes] at he
        omega
      | Drop x y => simp only [CompactMove.encodes] at he; omega
    rcases a with _ | a <;> rcases b with _ | b
    · rfl
    · exact (cmpInt_zero (pos b (hb b rfl)) (pos b (hb b rfl))).1
    · exact (cmpInt_zero (pos a (ha a rfl)) (pos a (ha a rfl))).2
    · rfl
  · intro a b
    rcases a with _ | a <;> rcases b with _ | b <;> try cases a <;> try cases b
    all_goals first | rfl | (cases b <;> rfl)
  · intro a b
    rcases a with a | a <;> rcases b with b | b <;> try cases a <;> try cases b
    all_goals first | rfl | (cases b <;> rfl)

/-! ### C70: bitboards -/

omit P in
theorem lt_bits : ∀ (n x y : Nat), x < 2 ^ n → y < 2 ^ n →
    (x < y ↔ ∃ i < n, y.testBit i = true ∧ x.testBit i = false ∧
      ∀ j < n, i < j → x.testBit j = y.testBit j)
  | 0, x, y, hx, hy => by
    constructor
    · intro h; simp at hx hy; omega
    · rintro ⟨i, hi, _⟩; omega
  | n + 1, x, y, hx, hy => by
    have hx' : x / 2 < 2 ^ n := by rw [Nat.pow_succ] at hx; omega
    have hy' : y / 2 < 2 ^ n := by rw [Nat.pow_succ] at hy; omega
    have ih := lt_bits n (x / 2) (y / 2) hx' hy'
    have z : ∀ v : Nat, v.testBit 0 = decide (v % 2 = 1) := fun v => Nat.testBit_zero v
    have s : ∀ v i : Nat, v.testBit (i + 1) = (v / 2).testBit i := fun v i => Nat.testBit_succ v i
    have e : x / 2 = y / 2 ↔ ∀ j < n, (x / 2).testBit j = (y / 2).testBit j := by
      constructor
      · intro e j _; rw [e]
      · intro h
        apply Nat.eq_of_testBit_eq
        intro j
        by_cases hj : j < n
        · exact h j hj
        · have hp : 2 ^ n ≤ 2 ^ j := Nat.pow_le_pow_right (by decide) (by omega)
          rw [Nat.testBit_lt_two_pow (by omega), Nat.testBit_lt_two_pow (by omega)]
    have split : x < y ↔ x / 2 < y / 2 ∨ (x / 2 = y / 2 ∧ x % 2 < y % 2) := by omega
    rw [split, ih, e]
    constructor
    · rintro (⟨i, hi, h1, h2, h3⟩ | ⟨h1, h2⟩)
      · refine ⟨i + 1, by omega, by rw [s]; exact h1, by rw [s]; exact h2, ?_⟩
        intro j hj hij
        obtain ⟨j, rfl⟩ : ∃ k, j = k + 1 := ⟨j - 1, by omega⟩
        rw [s, s]; exact h3 j (by omega) (by omega)
      · refine ⟨0, by omega, by rw [z]; simp; omega, by rw [z]; simp; omega, ?_⟩
        intro j hj hij
        obtain ⟨j, rfl⟩ : ∃ k, j = k + 1 := ⟨j - 1, by omega⟩
        rw [s, s]; exact h1 j (by omega)
    · rintro ⟨i, hi, h1, h2, h3⟩
      rcases Nat.eq_zero_or_pos i with rfl | hi0
      · rw [z] at h1 h2
        simp at h1 h2
        refine .inr ⟨fun j hj => ?_, by omega⟩
        rw [← s, ← s]; exact h3 (j + 1) (by omega) (by omega)
      · obtain ⟨i, rfl⟩ : ∃ k, i = k + 1 := ⟨i - 1, by omega⟩
        rw [s] at h1 h2
        refine .inl ⟨i, by omega, h1, h2, fun j hj hij => ?_⟩
        rw [← s, ← s]; exact h3 (j + 1) (by omega) (by omega)

/-- The squares in the order of weight: 0 for the least important. -/
def rankOf (i : Nat) : Nat := if i < 63 then i + 18 else i - 63

theorem weight_ok {s : Square} (hs : s.Valid) : s.weight =
    .ok [if s.idx0 / 9 + 1 ≤ 7 then 1 else 0, s.idx0 / 9 + 1, s.idx0 % 9 + 1] := by
  have hi := Square.idx0_lt hs
  rw [Square.weight, Square.file_ok hs, Square.rank_ok hs]
  simp only [Res.bind_ok, Res.pure_eq, BitVec.toNat_ofNat]
  rw [Nat.mod_eq_of_lt (by omega), Nat.mod_eq_of_lt (by omega)]

omit P in
theorem lex3_gt (a b c x y z : Nat) : lexNat [a, b, c] [x, y, z] = .gt ↔
    x < a ∨ (a = x ∧ (y < b ∨ (b = y ∧ z < c))) := by
  simp only [lexNat]
  by_cases h1 : a < x
  · simp [h1]; omega
  · by_cases h2 : x < a
    · simp [h1, h2]
    · by_cases h3 : b < y
      · simp [h1, h2, h3]; omega
      · by_cases h4 : y < b
        · simp [h1, h2, h3, h4]; omega
        · by_cases h5 : c < z
          · simp [h1, h2, h3, h4, h5]; omega
          · by_cases h6 : z < c
            · simp [h1, h2, h3, h4, h5, h6]; omega
            · simp [h1, h2, h3, h4, h5, h6]

theorem outweighs_iff {s t : Square} (hs : s.Valid) (ht : t.Valid) :
    t.Outweighs s ↔ rankOf s.idx0 < rankOf t.idx0 := by
  have hi := Square.idx0_lt hs
  have hj := Square.idx0_lt ht
  have : t.Outweighs s ↔
      lexNat [if t.idx0 / 9 + 1 ≤ 7 then 1 else 0, t.idx0 / 9 + 1, t.idx0 % 9 + 1]
        [if s.idx0 / 9 + 1 ≤ 7 then 1 else 0, s.idx0 / 9 + 1, s.idx0 % 9 + 1] = .gt := by
    constructor
    · rintro ⟨k, l, h1, h2, h3⟩
      rw [weight_ok ht] at h1; rw [weight_ok hs] at h2
      cases h1; cases h2; exact h3
    · intro h; exact ⟨_, _, weight_ok ht, weight_ok hs, h⟩
  rw [this, lex3_gt]
  unfold rankOf
  split <;> split <;> split <;> split <;> omega

theorem Bitboard.cmp_lt {a b : Bitboard} (ha : a.Canonical) (hb : b.Canonical) :
    a.cmp b = .lt ↔ ∃ i < 81, b.bit i = true ∧ a.bit i = false ∧
      ∀ j < 81, rankOf i < rankOf j → a.bit j = b.bit j := by
  have h0 := lt_bits 63 a.w0.toNat b.w0.toNat ha.1 hb.1
  have h1 := lt_bits 18 a.w1.toNat b.w1.toNat ha.2 hb.2
  have e0 : ∀ c : Bitboard, ∀ i < 63, c.bit i = c.w0.toNat.testBit i := by
    intro c i hi; rw [Bitboard.bit, if_pos hi]; rfl
  have e1 : ∀ c : Bitboard, ∀ i, c.bit (i + 63) = c.w1.toNat.testBit i := by
    intro c i; rw [Bitboard.bit, if_neg (by omega), Nat.add_sub_cancel]; rfl
  have split : a.cmp b = .lt ↔ a.w0.toNat < b.w0.toNat ∨
      (a.w0.toNat = b.w0.toNat ∧ a.w1.toNat < b.w1.toNat) := by
    show (compare a.w0.toNat b.w0.toNat).then ((compare a.w1.toNat b.w1.toNat).then .eq) = .lt ↔ _
    rw [then_eq_right]
    rcases Nat.lt_trichotomy a.w0.toNat b.w0.toNat with h | h | h
    · rw [Nat.compare_eq_lt.2 h]; simp [h]
    · rw [Nat.compare_eq_eq.2 h]; simp [h, Nat.compare_eq_lt]
    · rw [Nat.compare_eq_gt.2 h]; simp; omega
  have eq0 : a.w0.toNat = b.w0.toNat ↔ ∀ j < 63, a.bit j = b.bit j := by
    constructor
    · intro e j hj; rw [e0 _ j hj, e0 _ j hj, e]
    · intro h
      apply Nat.eq_of_testBit_eq
      intro j
      by_cases hj : j < 63
      · rw [← e0 _ j hj, ← e0 _ j hj]; exact h j hj
      · have hp : 2 ^ 63 ≤ 2 ^ j := Nat.pow_le_pow_right (by decide) (by omega)
        rw [Nat.testBit_lt_two_pow (Nat.lt_of_lt_of_le ha.1 hp),
          Nat.testBit_lt_two_pow (Nat.lt_of_lt_of_le hb.1 hp)]
  rw [split, h0, eq0, h1]
  constructor
  · rintro (⟨i, hi, g1, g2, g3⟩ | ⟨g0, i, hi, g1, g2, g3⟩)
    · refine ⟨i, by omega, by rw [e0 _ i hi]; exact g1, by rw [e0 _ i hi]; exact g2, ?_⟩
      intro j hj hij
      have hj' : j < 63 := by unfold rankOf at hij; split at hij <;> split at hij <;> omega
      have : i < j := by unfold rankOf at hij; rw [if_pos hi, if_pos hj'] at hij; omega
      rw [e0 _ j hj', e0 _ j hj']; exact g3 j hj' this
    · refine ⟨i + 63, by omega, by rw [e1]; exact g1, by rw [e1]; exact g2, ?_⟩
      intro j hj hij
      by_cases hj' : j < 63
      · exact g0 j hj'
      · obtain ⟨j, rfl⟩ : ∃ k, j = k + 63 := ⟨j - 63, by omega⟩
        unfold rankOf at hij
        rw [if_neg (by omega), if_neg (by omega)] at hij
        rw [e1, e1]; exact g3 j (by omega) (by omega)
  · rintro ⟨i, hi, g1, g2, g3⟩
    by_cases hi' : i < 63
    · refine .inl ⟨i, hi', by rw [← e0 _ i hi']; exact g1, by rw [← e0 _ i hi']; exact g2, ?_⟩
      intro j hj hij
      rw [← e0 _ j hj, ← e0 _ j hj]
      exact g3 j (by omega) (by unfold rankOf; rw [if_pos hi', if_pos hj]; omega)
    · obtain ⟨i, rfl⟩ : ∃ k, i = k + 63 := ⟨i - 63, by omega⟩
      rw [e1] at g1 g2
      refine .inr ⟨?_, i, by omega, g1, g2, ?_⟩
      · intro j hj
        exact g3 j (by omega) (by unfold rankOf; rw [if_neg (by omega), if_pos hj]; omega)
      · intro j hj hij
        rw [← e1, ← e1]
        exact g3 (j + 63) (by omega) (by unfold rankOf; rw [if_neg (by omega), if_neg (by omega)]; omega)

/-- C70: of two sets of squares the one that contains the weightiest square on which they differ
is the greater. -/
theorem C70_bitboards (a b : Bitboard) (ha : a.Canonical) (hb : b.Canonical) :
    a.cmp b = .lt ↔ ∃ s : Square, s.Valid ∧ b.Mem s ∧ ¬ a.Mem s ∧
      ∀ t : Square, t.Valid → t.Outweighs s → (a.Mem t ↔ b.Mem t) := by
  rw [Bitboard.cmp_lt ha hb]
  constructor
  · rintro ⟨i, hi, h1, h2, h3⟩
    have hv := Square.ofIdx_valid hi
    refine ⟨Square.ofIdx i, hv, ?_, ?_, ?_⟩
    · rw [Bitboard.mem_iff b hv, Square.idx0_ofIdx hi]; exact h1
    · rw [Bitboard.mem_iff a hv, Square.idx0_ofIdx hi, h2]; simp
    · intro t ht ho
      rw [outweighs_iff hv ht, Square.idx0_ofIdx hi] at ho
      rw [Bitboard.mem_iff a ht, Bitboard.mem_iff b ht, h3 _ (Square.idx0_lt ht) ho]
  · rintro ⟨s, hs, h1, h2, h3⟩
    rw [Bitboard.mem_iff b hs] at h1
    rw [Bitboard.mem_iff a hs] at h2
    refine ⟨s.idx0, Square.idx0_lt hs, h1, by simpa using h2, ?_⟩
    intro j hj hij
    have hv := Square.ofIdx_valid hj
    have := h3 (Square.ofIdx j) hv (by rw [outweighs_iff hs hv, Square.idx0_ofIdx hj]; exact hij)
    rw [Bitboard.mem_iff a hv, Bitboard.mem_iff b hv, Square.idx0_ofIdx hj] at this
    exact Bool.eq_iff_iff.2 this

/-- C70: a subset is never greater. -/
theorem C70_subset (a b : Bitboard) (ha : a.Canonical) (hb : b.Canonical)
    (h : ∀ s : Square, s.Valid → a.Mem s → b.Mem s) : a.cmp b ≠ .gt := by
  intro e
  have ho : TotalOrder Bitboard.cmp := cmpInt_order.list.on fun a : Bitboard => [a.w0, a.w1]
  have : b.cmp a = .lt := by rw [ho.swap a b, e]; rfl
  obtain ⟨s, hs, h1, h2, _⟩ := (C70_bitboards b a hb ha).1 this
  exact h2 (h s hs h1)

/-! ### C70: enumerations in order, and what the orders are not -/

/-- C70: the enumeration functions and bitboard iterators yield their values in ascending order. -/
theorem C70_ascending :
    (∃ l, Square.all = .ok l ∧ Ascending Square.cmp l) ∧
    Ascending PieceKind.cmp PieceKind.all ∧ Ascending Color.cmp Color.all ∧
    (∃ l, Hand.all_hand_pieces = .ok l ∧ Ascending PieceKind.cmp l) ∧
    (∀ b : Bitboard, b.Canonical → ∃ l, b.iterate 82 = .ok (some l) ∧ Ascending Square.cmp l) := by
  have up : ∀ {l : List Square}, l.Pairwise (fun s t => s.val.toNat < t.val.toNat) →
      Ascending Square.cmp l := fun h => h.imp fun h => Nat.compare_eq_lt.2 h
  refine ⟨?_, by unfold Ascending; decide +kernel, by unfold Ascending; decide +kernel, ?_, ?_⟩
  · obtain ⟨l, h1, _, _, h4⟩ := C02_all
    exact ⟨l, h1, up h4⟩
  · exact ⟨[.Pawn, .Lance, .Knight, .Silver, .Gold, .Bishop, .Rook], by decide +kernel,
      by unfold Ascending; decide +kernel⟩
  · intro b hb
    obtain ⟨l, n, h1, h2, h3, _, hl, h6⟩ := C18_iterate b hb
    refine ⟨l, h3 82 ?_, up h6⟩
    have := hl.length_eq b.bits_lists
    rw [List.length_map] at this
    have := b.bits_length_le
    omega

/-- C70: `Piece::all` alternates between the owners and so is not in the order of `Piece`. -/
theorem C70_refuted_pieces : ∃ v, Piece.all = .ok v ∧ ¬ Ascending Piece.cmp v.toList := by
  have : ∀ d : Build, ∃ v, @Piece.all ⟨d⟩ = .ok v ∧ ¬ Ascending Piece.cmp v.toList := by
    intro d
    have t : (match @Piece.all ⟨d⟩ with
      | .ok v => !decide (v.toList.Pairwise fun a b => Piece.cmp a b = .lt)
      | _ => false) = true := by rcases d with ⟨_ | _, _ | _⟩ <;> decide +kernel
    generalize @Piece.all ⟨d⟩ = x at *
    match x, t with
    | .ok v, t => exact ⟨v, rfl, by simpa [Ascending] using t⟩
  exact this P.build

/-- C70: on two board moves without promotion, and on two drops, `CompactMove` is ordered as
`Move`. -/
theorem C70_compact_agrees (m n : Move) (c d : CompactMove) (hm : m.Valid) (hn : n.Valid)
    (hc : CompactMove.ofMove m = .ok c) (hd : CompactMove.ofMove n = .ok d)
    (h : m.is_drop = n.is_drop) (h1 : m.is_promoting = false) (h2 : n.is_promoting = false) :
    c.cmp d = m.cmp n := by
  obtain ⟨c', e1, e2⟩ := CompactMove.ofMove_ok hm
  obtain ⟨d', f1, f2⟩ := CompactMove.ofMove_ok hn
  rw [hc] at e1; cases e1
  rw [hd] at f1; cases f1
  unfold CompactMove.cmp cmpInt
  cases m with
  | Normal s t pr =>
    cases n with
    | Normal s' t' pr' =>
      cases pr <;> cases pr' <;> simp [Move.is_promoting] at h1 h2
      have b1 := hm.2.2; have b2 := hn.2.2
      simp only [CompactMove.encodes] at e2 f2
      rw [e2, f2]
      have := compare_radix (B := 256) (a := s.val.toNat) (b := s'.val.toNat) (r := t.val.toNat)
        (s := t'.val.toNat) (by omega) (by omega)
      simp only [Bool.false_eq_true, if_false, Nat.zero_add, this, Move.cmp]
      exact congrArg _ (then_eq_right _).symm
    | Drop p' t' => simp [Move.is_drop] at h
  | Drop p t =>
    cases n with
    | Normal s' t' pr' => simp [Move.is_drop] at h
    | Drop p' t' =>
      have b1 := hm.2.2; have b2 := hn.2.2
      simp only [CompactMove.encodes] at e2 f2
      rw [e2, f2]
      have := compare_radix (B := 256) (a := p.val.toNat) (b := p'.val.toNat)
        (r := 128 + t.val.toNat) (s := 128 + t'.val.toNat) (by omega) (by omega)
      rw [Nat.add_assoc, Nat.add_assoc, this, Move.cmp]
      show _ = (compare p.val.toNat p'.val.toNat).then (compare t.val.toNat t'.val.toNat)
      congr 1
      rcases Nat.lt_trichotomy t.val.toNat t'.val.toNat with h | h | h
      · rw [Nat.compare_eq_lt.2 h, Nat.compare_eq_lt.2 (by omega)]
      · rw [Nat.compare_eq_eq.2 h, Nat.compare_eq_eq.2 (by omega)]
      · rw [Nat.compare_eq_gt.2 h, Nat.compare_eq_gt.2 (by omega)]

/-- C70: in general the two orders differ: 1a-2b+ comes before 2b-1a as a `Move` and after it as a
`CompactMove`, and the drop of a pawn comes after 2b-1a as a `Move` and before it as a
`CompactMove`. -/
theorem C70_refuted_compact :
    (∃ m n c d, m.Valid ∧ n.Valid ∧ CompactMove.ofMove m = .ok c ∧ CompactMove.ofMove n = .ok d ∧
      m.is_drop = false ∧ n.is_drop = false ∧ m.cmp n = .lt ∧ c.cmp d = .gt) ∧
    (∃ m n c d, m.Valid ∧ n.Valid ∧ CompactMove.ofMove m = .ok c ∧ CompactMove.ofMove n = .ok d ∧
      n.is_promoting = false ∧ m.cmp n = .gt ∧ c.cmp d = .lt) := by
  constructor
  · refine ⟨.Normal ⟨1⟩ ⟨11⟩ true, .Normal ⟨11⟩ ⟨1⟩ false, ⟨33035⟩, ⟨2817⟩, by decide, by decide,
      ?_, ?_, rfl, rfl, by decide, by decide⟩
    · exact profile_ind (motive := fun P => @CompactMove.ofMove P _ = _)
        (fun d => by rcases d with ⟨_ | _, _ | _⟩ <;> decide +kernel) P
    · exact profile_ind (motive := fun P => @CompactMove.ofMove P _ = _)
        (fun d => by rcases d with ⟨_ | _, _ | _⟩ <;> decide +kernel) P
  · refine ⟨.Drop ⟨1⟩ ⟨11⟩, .Normal ⟨11⟩ ⟨1⟩ false, ⟨395⟩, ⟨2817⟩, by decide, by decide,
      ?_, ?_, rfl, by decide, by decide⟩
    · exact profile_ind (motive := fun P => @CompactMove.ofMove P _ = _)
        (fun d => by rcases d with ⟨_ | _, _ | _⟩ <;> decide +kernel) P
    · exact profile_ind (motive := fun P => @CompactMove.ofMove P _ = _)
        (fun d => by rcases d with ⟨_ | _, _ | _⟩ <;> decide +kernel) P

omit P in
/-- C70: the order of bitboards is not the order of their `to_u128`, nor that of the byte-swapped
boards. -/
theorem C70_refuted_u128 :
    (∃ a b : Bitboard, a.Canonical ∧ b.Canonical ∧ a.cmp b = .lt ∧
      b.to_u128.toNat < a.to_u128.toNat) ∧
    (∃ a b : Bitboard, a.Canonical ∧ b.Canonical ∧ a.cmp b = .lt ∧
      a.swap_bytes.cmp b.swap_bytes = .gt) :=
  ⟨⟨⟨0, 1⟩, ⟨1, 0⟩, by decide +kernel⟩, ⟨⟨1, 0⟩, ⟨256, 0⟩, by decide +kernel⟩⟩

/-- Non-vacuity: the start position and the empty one are both reachable and differ in the board
part of the key. -/
example : ∃ p q : PartialPosition, ApiReach p ∧ ApiReach q ∧ p.cmp q = .lt := by
  obtain ⟨q, hq, _⟩ := startpos_total
  refine ⟨.empty, q, .empty, .startpos hq, ?_⟩
  have : ∀ d : Build, (match @PartialPosition.startpos ⟨d⟩ with
      | .ok q => decide (PartialPosition.empty.cmp q = .lt)
      | _ => false) = true := by decide +kernel
  have := this P.build
  rw [show @PartialPosition.startpos ⟨P.build⟩ = .ok q from hq] at this
  simpa using this

/-- Non-vacuity: two hands, more pawns against more rooks. -/
example : ∃ h g : Hand, h.Valid ∧ g.Valid ∧ h.cmp g = .lt ∧ h.count .Rook = .ok (some 2) ∧
    g.count .Pawn = .ok (some 1) :=
  ⟨⟨#v[0, 0, 0, 0, 0, 0, 2, 0]⟩, ⟨#v[1, 0, 0, 0, 0, 0, 0, 0]⟩, by decide, by decide, by decide,
    by rw [Hand.count_ok]; rfl, by rw [Hand.count_ok]; rfl⟩

/-- Non-vacuity: {1a} is greater than {9i}. -/
example : ∃ a b : Bitboard, a.Canonical ∧ b.Canonical ∧ a.cmp b = .lt ∧ a.Mem ⟨81⟩ ∧ b.Mem ⟨1⟩ := by
  refine ⟨⟨0, 131072⟩, ⟨1, 0⟩, by decide, by decide, by decide, ?_, ?_⟩
  · rw [Bitboard.mem_iff _ (by decide)]; decide
  · rw [Bitboard.mem_iff _ (by decide)]; decide

/-- Non-vacuity: an unfinished game and the same game drawn. -/
example : ∃ (p : PartialPosition) (g h : Game), ApiReach p ∧ Position.From p [] g.position ∧
    Position.From p [] h.position ∧ g.get_resolution = .ok none ∧
    h.get_resolution = .ok (some .Draw) ∧ g.cmp h = .lt :=
  ⟨.empty, ⟨.arbitrary_position .empty, ⟨0⟩⟩, ⟨.arbitrary_position .empty, ⟨3⟩⟩, .empty, .start,
    .start, rfl, rfl, by decide +kernel⟩

/-- Non-vacuity: two board moves without promotion. -/
example : ∃ m n : Move, m.Valid ∧ n.Valid ∧ m.is_drop = n.is_drop ∧ m.is_promoting = false ∧
    n.is_promoting = false ∧ m.cmp n = .lt :=
  ⟨.Normal ⟨1⟩ ⟨11⟩ false, .Normal ⟨11⟩ ⟨1⟩ false, by decide, by decide, rfl, rfl, rfl, by decide⟩

end ShogiCore
