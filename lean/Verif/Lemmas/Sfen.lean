import Verif.Spec.Sfen
import Verif.Lemmas.Count
import Verif.Lemmas.Writer
import Verif.Props.Text

set_option linter.unusedSectionVars false

namespace ShogiCore
open PartialPosition

variable {W : Type} [Write W] [P : Profile]

omit P in
@[simp] theorem colorOfPiece_mk' (k : PieceKind) (c : Color) : colorOfPiece (Piece.mk' k c) = c := by
  revert k c; decide +kernel

theorem wr_bind_any {α : Type} (a b : List (List U8)) (f : FmtM W α) :
    (do wr a; wr b; f : FmtM W α) = (do wr (a ++ b); f) := by
  rw [← wr_bind, bind_assoc]

theorem vacancy_ok (v : U8) :
    (if 0 < v.toNat then write_u8 v else pure () : FmtM W Unit) = wr (vacancyChunks v.toNat) := by
  unfold vacancyChunks
  by_cases h : v.toNat = 0
  · simp [h]
  · rw [if_pos (by omega), if_neg h, write_u8_ok]

/-- The cells of a rank, by index. -/
def cellsFrom (p : PartialPosition) (i : Nat) (js : List Nat) : List (Option Piece) :=
  js.map fun j => p.cell (9 * (8 - j) + i)

/-- The inner loop, followed by the vacancy write after it. -/
theorem row_ok {p : PartialPosition} (ok : p.Ok) {i : Nat} (hi : i < 9) (js : List Nat)
    (hj : ∀ j ∈ js, j < 9) (v : U8) (hv : v.toNat + js.length ≤ 9) :
    (do
      let v ← to_sfen_row p i js v
      if 0 < v.toNat then write_u8 v else pure () : FmtM W Unit) =
    wr (rankChunks v.toNat (cellsFrom p i js)) := by
  induction js generalizing v with
  | nil =>
    rw [to_sfen_row, pure_bind, vacancy_ok]; rfl
  | cons j js ih =>
    have hj9 := hj j (by simp)
    have hn : nsub 8 j = .ok (8 - j) := by unfold nsub; rw [if_pos (by omega)]
    have hlt : 9 * (8 - j) + i < 81 := by omega
    have hg : getUnchecked p.board (9 * (8 - j) + i) = .ok p.board[9 * (8 - j) + i] := by
      unfold getUnchecked; rw [dif_pos hlt]
    rw [List.length_cons] at hv
    have ih' := ih (fun j h => hj j (by simp [h]))
    rw [to_sfen_row]
    simp only [hn, hg, FmtM.lift_ok, pure_bind, ← cell_lt hlt, cellsFrom, List.map_cons]
    rcases ok.cases (9 * (8 - j) + i) with e | ⟨k, c, e⟩
    · rw [e, rankChunks]
      have ha : (cadd v 1 : Res U8) = .ok (v + 1) := by
        apply cadd_ok
        have : (1 : U8).toNat = 1 := rfl
        omega
      simp only [ha, FmtM.lift_ok, pure_bind]
      have hv1 : (v + 1).toNat = v.toNat + 1 := by
        rw [BitVec.toNat_add]
        have : (1 : U8).toNat = 1 := rfl
        omega
      rw [ih' (v + 1) (by omega), hv1]; rfl
    · rw [e, rankChunks, kindOfPiece_mk', colorOfPiece_mk']
      simp only [piece_to_usi]
      have h0 := ih' 0 (by have : (0 : U8).toNat = 0 := rfl; omega)
      have h00 : (0 : U8).toNat = 0 := rfl
      rw [h00] at h0
      by_cases hz : v.toNat = 0
      · have : v = 0 := BitVec.eq_of_toNat_eq hz
        subst this
        simp only [h00, Nat.lt_irrefl, if_false, bind_assoc]
        rw [h0, wr_bind]; rfl
      · simp only [show 0 < v.toNat from by omega, if_true, bind_assoc]
        rw [write_u8_ok v, h0, wr_bind, wr_bind]
        unfold vacancyChunks
        rw [if_neg hz]; rfl

theorem at_idx {f r : Nat} (hf : 1 ≤ f ∧ f ≤ 9) (hr : 1 ≤ r ∧ r ≤ 9) :
    (Square.at f r).Valid ∧ (Square.at f r).idx0 = 9 * (f - 1) + (r - 1) := by
  have key : ∀ f < 9, ∀ r < 9, (Square.at (f + 1) (r + 1)).Valid ∧
    (Square.at (f + 1) (r + 1)).idx0 = 9 * (f + 1 - 1) + (r + 1 - 1) := by decide
  obtain ⟨a, rfl⟩ : ∃ a, f = a + 1 := ⟨f - 1, by omega⟩
  obtain ⟨b, rfl⟩ : ∃ b, r = b + 1 := ⟨r - 1, by omega⟩
  exact key a (by omega) b (by omega)

theorem rankCells_eq (p : PartialPosition) {r : Nat} (hr : 1 ≤ r ∧ r ≤ 9) :
    p.rankCells r = [9, 8, 7, 6, 5, 4, 3, 2, 1].map fun f => p.cell (9 * (f - 1) + (r - 1)) := by
  unfold PartialPosition.rankCells
  apply List.map_congr_left
  intro f hf
  have hf' : 1 ≤ f ∧ f ≤ 9 := by simp at hf; omega
  obtain ⟨h1, h2⟩ := at_idx hf' hr
  rw [piece_at_ok p h1, h2]

theorem rankCells_from (p : PartialPosition) {i : Nat} (hi : i < 9) :
    cellsFrom p i (List.range 9) = p.rankCells (i + 1) := by
  rw [rankCells_eq p (by omega)]; rfl

theorem board_loop_ok {p : PartialPosition} (ok : p.Ok) (is : List Nat) (h : ∀ i ∈ is, i < 9) :
    (to_sfen_board p is : FmtM W Unit) =
      wr (is.flatMap fun i => rankChunks 0 (p.rankCells (i + 1)) ++
        (if i < 8 then [ascii "/"] else [])) := by
  induction is with
  | nil => rfl
  | cons i is ih =>
    have hi := h i (by simp)
    have hr := row_ok (W := W) ok hi (List.range 9) (by simp) 0 (by decide)
    rw [rankCells_from p hi] at hr
    have hr' : (0 : U8).toNat = 0 := rfl
    rw [hr'] at hr
    rw [to_sfen_board, List.flatMap_cons, ← wr_bind, ← wr_bind, ← hr,
      ih (fun j hj => h j (by simp [hj]))]
    rw [write_ascii_byte_ok (by decide)]
    by_cases h8 : i < 8
    · simp only [h8, if_true, bind_assoc]
      congr 1; funext v
      by_cases hv : 0 < v.toNat
      · simp only [hv, if_true]; rfl
      · simp only [hv, if_false, pure_bind]; rfl
    · simp only [h8, if_false, bind_assoc, wr_nil, pure_bind]
      congr 1; funext v
      by_cases hv : 0 < v.toNat
      · simp only [hv, if_true]
      · simp only [hv, if_false, pure_bind]

theorem to_sfen_ok {p : PartialPosition} (ok : p.Ok) :
    (p.to_sfen : FmtM W Unit) = wr (p.sfenChunks (p.handOf .Black) (p.handOf .White)) := by
  unfold to_sfen sfenChunks
  rw [board_loop_ok ok _ (by simp), write_ascii_byte_ok (by decide), color_to_usi, hand_to_usi,
    write_u16_ok]
  simp only [wr_bind]
  rfl

theorem to_sfen_owned_ok {p : PartialPosition} (ok : p.Ok) :
    p.to_sfen_owned = .ok (p.sfenChunks (p.handOf .Black) (p.handOf .White)).flatten := by
  unfold to_sfen_owned
  rw [to_sfen_ok ok]
  unfold wr
  rw [writeAll_string]; simp

/-! ### Parsing -/

omit P in
theorem fields_none {sep : U8} {l : List U8} (h : sep ∉ l) : fields sep l = [l] := by
  induction l with
  | nil => rfl
  | cons b l ih =>
    rw [fields, if_neg (fun e => h (by simp [e])), ih (fun e => h (by simp [e]))]

omit P in
theorem fields_cons {sep : U8} {l r : List U8} (h : sep ∉ l) :
    fields sep (l ++ sep :: r) = l :: fields sep r := by
  induction l with
  | nil => rw [List.nil_append, fields, if_pos rfl]
  | cons b l ih =>
    rw [List.cons_append, fields, if_neg (fun e => h (by simp [e])), ih (fun e => h (by simp [e]))]

/-- The characters of a rank. -/
def rankText (n : Nat) (l : List (Option Piece)) : List U8 := (rankChunks n l).flatten

/-- What a piece on the board denotes. -/
def toCell (o : Option Piece) : Cell := o.map fun x => (kindOfPiece x, colorOfPiece x)

omit P in
theorem parse_piece (k : PieceKind) (c : Color) (st : RankState) (h : st ≠ .plus) (rest : List U8) :
    parseRank st (pieceText k c ++ rest) = (parseRank .piece rest).map (some (k, c) :: ·) := by
  cases st with
  | plus => exact absurd rfl h
  | piece => cases k <;> cases c <;> rfl
  | digit => cases k <;> cases c <;> rfl

omit P in
theorem parse_rank (l : List (Option Piece)) (n : Nat) (h : n + l.length ≤ 9) :
    parseRank .piece (rankText n l) = some (List.replicate n none ++ l.map toCell) := by
  have digit : ∀ n, 1 ≤ n → n ≤ 9 → ∀ rest, parseRank .piece ((vacancyChunks n).flatten ++ rest) =
      (parseRank .digit rest).map (List.replicate n none ++ ·) := by
    intro n h1 h2 rest
    rw [vacancyChunks, if_neg (by omega), flatten_singly, decimal_lt (by omega), List.singleton_append,
      parseRank]
    have : (BitVec.ofNat 8 (48 + n)).toNat = 48 + n := by
      rw [BitVec.toNat_ofNat]; omega
    rw [this, if_pos (by omega), if_pos rfl, Nat.add_sub_cancel_left]
  induction l generalizing n with
  | nil =>
    unfold rankText
    rw [rankChunks]
    by_cases h0 : n = 0
    · subst h0; rfl
    · have := digit n (by omega) (by simpa using h) []
      rw [List.append_nil] at this
      rw [this]; rfl
  | cons o l ih =>
    rw [List.length_cons] at h
    cases o with
    | none =>
      have := ih (n + 1) (by omega)
      unfold rankText at this ⊢
      rw [rankChunks, this, List.replicate_succ', List.append_assoc]; rfl
    | some x =>
      have := ih 0 (by omega)
      unfold rankText at this ⊢
      rw [rankChunks, List.flatten_append, List.flatten_append]
      by_cases h0 : n = 0
      · subst h0
        rw [show (vacancyChunks 0).flatten = [] from rfl, List.nil_append, List.flatten_singleton,
          parse_piece _ _ _ (by simp), this]; rfl
      · rw [digit n (by omega) (by omega), List.flatten_singleton, parse_piece _ _ _ (by simp), this]
        rfl

/-- Bytes that occur in the texts of ranks. -/
def rankByte (b : U8) : Bool :=
  decide (48 ≤ b.toNat ∧ b.toNat ≤ 57 ∨ b.toNat = 43 ∨ 65 ≤ b.toNat ∧ b.toNat ≤ 122)

omit P in
theorem digit_rankByte {b : U8} (h : isDigit b = true) : rankByte b = true := by
  simp [isDigit, rankByte] at *; omega

omit P in
theorem pieceText_bytes : ∀ k c, ∀ b ∈ pieceText k c, rankByte b = true := by decide +kernel

omit P in
theorem vacancy_bytes (n : Nat) : ∀ b ∈ (vacancyChunks n).flatten, rankByte b = true := by
  intro b hb
  unfold vacancyChunks at hb
  split at hb
  · simp at hb
  · rw [flatten_singly] at hb; exact digit_rankByte (decimal_digits n b hb)

omit P in
theorem rank_bytes (l : List (Option Piece)) (n : Nat) : ∀ b ∈ rankText n l, rankByte b = true := by
  induction l generalizing n with
  | nil => exact vacancy_bytes n
  | cons o l ih =>
    unfold rankText at ih ⊢
    intro b hb
    cases o with
    | none => exact ih _ b hb
    | some x =>
      rw [rankChunks, List.flatten_append, List.flatten_append, List.flatten_singleton,
        List.mem_append, List.mem_append] at hb
      rcases hb with hb | hb | hb
      · exact vacancy_bytes n b hb
      · exact pieceText_bytes _ _ b hb
      · exact ih _ b hb

theorem rankCells_length (p : PartialPosition) (r : Nat) : (p.rankCells r).length = 9 := rfl

/-- Ranks of a position as the parser sees them. -/
def ranksOf (p : PartialPosition) : List (List Cell) :=
  [1, 2, 3, 4, 5, 6, 7, 8, 9].map fun r => (p.rankCells r).map toCell

theorem parse_board (p : PartialPosition) :
    parseBoard p.boardChunks.flatten = some (ranksOf p) ∧ asciiByte ' ' ∉ p.boardChunks.flatten := by
  have slash : ∀ r, asciiByte '/' ∉ rankText 0 (p.rankCells r) := fun r h =>
    absurd (rank_bytes _ _ _ h) (by decide)
  have space : ∀ r, asciiByte ' ' ∉ rankText 0 (p.rankCells r) := fun r h =>
    absurd (rank_bytes _ _ _ h) (by decide)
  have text : p.boardChunks.flatten =
      rankText 0 (p.rankCells 1) ++ asciiByte '/' :: (rankText 0 (p.rankCells 2) ++ asciiByte '/' ::
      (rankText 0 (p.rankCells 3) ++ asciiByte '/' :: (rankText 0 (p.rankCells 4) ++ asciiByte '/' ::
      (rankText 0 (p.rankCells 5) ++ asciiByte '/' :: (rankText 0 (p.rankCells 6) ++ asciiByte '/' ::
      (rankText 0 (p.rankCells 7) ++ asciiByte '/' :: (rankText 0 (p.rankCells 8) ++ asciiByte '/' ::
      rankText 0 (p.rankCells 9)))))))) := by
    have ha : ascii "/" = [asciiByte '/'] := by decide
    simp [boardChunks, rankText, ha]
  have one : ∀ r, parseRank9 (rankText 0 (p.rankCells r)) = some ((p.rankCells r).map toCell) := by
    intro r
    unfold parseRank9
    rw [parse_rank _ 0 (by rw [rankCells_length]; omega)]
    rfl
  constructor
  · unfold parseBoard
    rw [text]
    simp only [fields_cons (slash _), fields_none (slash _), parseEach, one]
    rfl
  · rw [text]
    simp only [List.mem_append, List.mem_cons, not_or]
    have : asciiByte ' ' ≠ asciiByte '/' := by decide
    exact ⟨space _, this, space _, this, space _, this, space _, this, space _, this, space _, this,
      space _, this, space _, this, space _⟩

omit P in
theorem handText_bytes (b w : Hand) : ∀ x ∈ handsText b w, x = asciiByte '-' ∨ rankByte x = true := by
  have one : ∀ (h : Hand) (c : Color), ∀ x ∈ handText h c, rankByte x = true := by
    intro h c x hx
    unfold handText at hx
    rw [List.mem_flatMap] at hx
    obtain ⟨j, _, hx⟩ := hx
    unfold countedText at hx
    rw [List.mem_append] at hx
    rcases hx with hx | hx
    · split at hx
      · exact digit_rankByte (decimal_digits _ _ hx)
      · simp at hx
    · split at hx
      · simp at hx
      · exact pieceText_bytes _ _ _ hx
  intro x hx
  unfold handsText at hx
  split at hx
  · left; simpa [show ascii "-" = [asciiByte '-'] by decide] using hx
  · right
    rw [List.mem_append] at hx
    rcases hx with hx | hx
    · exact one _ _ _ hx
    · exact one _ _ _ hx

theorem sfen_text (p : PartialPosition) (b w : Hand) :
    (p.sfenChunks b w).flatten = p.boardChunks.flatten ++ asciiByte ' ' ::
      (colorText p.side ++ asciiByte ' ' :: (handsText b w ++ asciiByte ' ' ::
        decimal p.ply.toNat)) := by
  have ha : ascii " " = [asciiByte ' '] := by decide
  simp [sfenChunks, ha, side_to_move, get_ply]

theorem parse_sfen (p : PartialPosition) (b w : Hand) :
    ∃ items, parseHands (handsText b w) = some items ∧
      parseSfen (p.sfenChunks b w).flatten = some ⟨ranksOf p, p.side, items, p.ply.toNat⟩ := by
  obtain ⟨h1, h2⟩ := parse_board p
  obtain ⟨items, h3, _⟩ := parseHands_counts b w
  refine ⟨items, h3, ?_⟩
  unfold parseSfen
  have c1 : asciiByte ' ' ∉ colorText p.side := by cases p.side <;> decide
  have c2 : asciiByte ' ' ∉ handsText b w := by
    intro h
    rcases handText_bytes b w _ h with h | h
    · revert h; decide
    · revert h; decide
  have c3 : asciiByte ' ' ∉ decimal p.ply.toNat := by
    intro h; have := decimal_digits _ _ h; revert this; decide
  have c4 : parseSide (colorText p.side) = some p.side := by cases p.side <;> decide
  rw [sfen_text, fields_cons h2, fields_cons c1, fields_cons c2, fields_none c3]
  simp only [h1, c4, h3, parseNumber_decimal]

end ShogiCore

/-! ### Lengths -/

namespace ShogiCore
open PartialPosition

variable [P : Profile]

omit P in
theorem decimal_length (n : Nat) :
    (n < 10 → (decimal n).length = 1) ∧ (n < 100 → (decimal n).length ≤ 2) ∧
    (n < 1000 → (decimal n).length ≤ 3) ∧ (n < 10000 → (decimal n).length ≤ 4) ∧
    (n < 100000 → (decimal n).length ≤ 5) := by
  have step : ∀ n B k, (∀ m < B, (decimal m).length ≤ k) → n < 10 * B → (decimal n).length ≤ k + 1 := by
    intro n B k h hn
    by_cases h10 : n < 10
    · rw [decimal_lt h10]; simp
    · rw [decimal_ge (by omega), List.length_append, List.length_singleton]
      exact Nat.succ_le_succ (h _ (by omega))
  have h1 : ∀ m < 10, (decimal m).length ≤ 1 := fun m h => by rw [decimal_lt h]; simp
  have h2 : ∀ m < 100, (decimal m).length ≤ 2 := fun m h => step m 10 1 h1 h
  have h3 : ∀ m < 1000, (decimal m).length ≤ 3 := fun m h => step m 100 2 h2 h
  have h4 : ∀ m < 10000, (decimal m).length ≤ 4 := fun m h => step m 1000 3 h3 h
  exact ⟨fun h => by rw [decimal_lt h]; rfl, h2 n, h3 n, h4 n, fun h => step n 10000 4 h4 h⟩

/-- Extra characters of a piece: 1 for `+`. -/
def plusCount : Option Piece → Nat
  | none => 0
  | some x => (pieceText (kindOfPiece x) (colorOfPiece x)).length - 1

omit P in
theorem pieceText_length (k : PieceKind) (c : Color) :
    1 ≤ (pieceText k c).length ∧ (pieceText k c).length ≤ 2 := by
  cases k <;> cases c <;> decide

omit P in
theorem plusCount_le (o : Option Piece) : plusCount o ≤ 1 := by
  cases o with
  | none => simp [plusCount]
  | some x =>
    have := pieceText_length (kindOfPiece x) (colorOfPiece x)
    have h : plusCount (some x) = (pieceText (kindOfPiece x) (colorOfPiece x)).length - 1 := rfl
    omega

omit P in
theorem rankText_length (l : List (Option Piece)) (n : Nat) (h : n + l.length ≤ 9) :
    (rankText n l).length ≤ (if n = 0 then 0 else 1) + l.length + (l.map plusCount).sum := by
  have vac : ∀ n ≤ 9, (vacancyChunks n).flatten.length = if n = 0 then 0 else 1 := by
    intro n hn
    unfold vacancyChunks
    split
    · rfl
    · rw [flatten_singly]; exact (decimal_length n).1 (by omega)
  induction l generalizing n with
  | nil =>
    unfold rankText
    rw [rankChunks, vac n (by simpa using h)]; simp
  | cons o l ih =>
    rw [List.length_cons] at h
    unfold rankText at ih ⊢
    rw [List.map_cons, List.sum_cons, List.length_cons]
    cases o with
    | none =>
      have := ih (n + 1) (by omega)
      rw [rankChunks]
      simp only [Nat.add_one_ne_zero, if_false] at this
      simp only [plusCount]
      split <;> omega
    | some x =>
      have := ih 0 (by omega)
      rw [rankChunks, List.flatten_append, List.flatten_append, List.length_append,
        List.length_append, List.flatten_singleton, vac n (by omega)]
      have h2 := pieceText_length (kindOfPiece x) (colorOfPiece x)
      have h3 : plusCount (some x) = (pieceText (kindOfPiece x) (colorOfPiece x)).length - 1 := rfl
      simp only [if_true] at this
      omega

theorem boardChunks_length (p : PartialPosition) :
    p.boardChunks.flatten.length ≤
      89 + ([1, 2, 3, 4, 5, 6, 7, 8, 9].map fun r => ((p.rankCells r).map plusCount).sum).sum := by
  have h : ∀ r, (rankChunks 0 (p.rankCells r)).flatten.length ≤
      9 + ((p.rankCells r).map plusCount).sum := by
    intro r
    have := rankText_length (p.rankCells r) 0 (by rw [rankCells_length]; omega)
    rw [rankCells_length] at this
    simpa [rankText] using this
  have e : (ascii "/").length = 1 := rfl
  have := h 1; have := h 2; have := h 3; have := h 4; have := h 5
  have := h 6; have := h 7; have := h 8; have := h 9
  simp only [boardChunks, List.flatMap_cons, List.flatMap_nil, List.flatten_append, List.length_append,
    List.map_cons, List.map_nil, List.sum_cons, List.sum_nil]
  simp (config := { decide := true }) only [if_true, if_false, List.flatten_cons, List.flatten_nil, List.length_nil,
    List.append_nil, e]
  omega

/-- Number of promoted pieces. -/
def plusTotal (p : PartialPosition) : Nat := sumTo (fun i => plusCount (p.cell i)) 81

omit P in
theorem sumTo_ranks (g : Nat → Nat) :
    ([1, 2, 3, 4, 5, 6, 7, 8, 9].map fun r =>
      ([9, 8, 7, 6, 5, 4, 3, 2, 1].map fun f => g (9 * (f - 1) + (r - 1))).sum).sum = sumTo g 81 := by
  simp only [List.map_cons, List.map_nil, List.sum_cons, List.sum_nil, sumTo]
  simp only [Nat.reduceSub, Nat.reduceMul, Nat.reduceAdd]
  omega

theorem plusTotal_eq (p : PartialPosition) :
    ([1, 2, 3, 4, 5, 6, 7, 8, 9].map fun r => ((p.rankCells r).map plusCount).sum).sum =
      plusTotal p := by
  unfold plusTotal
  rw [← sumTo_ranks]
  congr 1
  apply List.map_congr_left
  intro r hr
  have hr : 1 ≤ r ∧ r ≤ 9 := by simp at hr; omega
  rw [rankCells_eq p hr, List.map_map]; rfl

end ShogiCore
