import Verif.Props.Edit
import Verif.Props.Record
import Verif.Props.Sfen
import Verif.Spec.Wire

/- C66: exchanging a game in one line of text. -/

set_option linter.unusedSectionVars false

namespace ShogiCore
open PartialPosition

variable [P : Profile]

/-! ### Hands -/

theorem addTimes_ok (h : Hand) (k : PieceKind) (hk : k.InHand) (n : Nat) :
    h.addTimes k n = .ok (some (h.setCell k hk (h.cell k hk + BitVec.ofNat 8 n))) := by
  induction n generalizing h with
  | zero => rw [Hand.addTimes, Hand.setCell_self]; simp
  | succ n ih =>
    rw [Hand.addTimes, Hand.added_ok, dif_pos hk]
    simp only [Res.bind_ok]
    rw [ih, Hand.setCell_setCell, Hand.cell_setCell, if_pos rfl]
    congr 3
    apply BitVec.eq_of_toNat_eq
    simp only [BitVec.toNat_add, BitVec.toNat_ofNat]
    rw [show (1 : U8).toNat = 1 from rfl]
    omega

theorem addTimes_total (h : Hand) (k : PieceKind) (n : Nat) (hv : h.Valid) :
    ∃ o, h.addTimes k n = .ok o ∧ ∀ h', o = some h' → h'.Valid := by
  by_cases hk : k.InHand
  · refine ⟨_, addTimes_ok h k hk n, ?_⟩
    rintro h' ⟨⟩
    exact (Hand.setCell_7 ..).trans hv
  · cases n with
    | zero => exact ⟨_, rfl, by rintro h' ⟨⟩; exact hv⟩
    | succ n =>
      refine ⟨none, ?_, by simp⟩
      rw [Hand.addTimes, Hand.added_ok, dif_neg hk]; rfl

omit P in
theorem itemCount_cons (n : Nat) (k' : PieceKind) (d : Color) (items : List HandItem)
    (k : PieceKind) (c : Color) : itemCount ((n, k', d) :: items) k c =
      (if k' = k ∧ d = c then n else 0) + itemCount items k c := by
  unfold itemCount
  by_cases h : k' = k ∧ d = c
  · rw [List.filter_cons_of_pos (by simp [h.1, h.2]), if_pos h]; simp
  · rw [List.filter_cons_of_neg (by simpa using h), if_neg h]; simp

theorem addItems_ok (c : Color) (items : List HandItem) (hi : ∀ i ∈ items, i.2.1.InHand)
    (h : Hand) : ∃ h', Hand.addItems c h items = .ok (some h') ∧ h'.cells[7] = h.cells[7] ∧
      ∀ k hk, (h'.cell k hk).toNat = ((h.cell k hk).toNat + itemCount items k c) % 256 := by
  induction items generalizing h with
  | nil =>
    refine ⟨h, rfl, rfl, fun k hk => ?_⟩
    have := (h.cell k hk).isLt
    simp only [itemCount, List.filter_nil, List.map_nil, List.sum_nil]
    omega
  | cons i items ih =>
    obtain ⟨n, k', d⟩ := i
    have hk' : k'.InHand := hi (n, k', d) (by simp)
    have ih := ih (fun i h => hi i (by simp [h]))
    by_cases hd : d = c
    · obtain ⟨h', e, h7, hc⟩ := ih (h.setCell k' hk' (h.cell k' hk' + BitVec.ofNat 8 n))
      refine ⟨h', ?_, h7.trans (Hand.setCell_7 ..), fun k hk => ?_⟩
      · rw [Hand.addItems, if_pos hd, addTimes_ok h k' hk' n]
        exact e
      · rw [hc k hk, Hand.cell_setCell, itemCount_cons]
        by_cases e : k' = k
        · subst e
          simp only [hd, and_self, if_true, BitVec.toNat_add, BitVec.toNat_ofNat]
          omega
        · simp only [e, false_and, if_false]; omega
    · obtain ⟨h', e, h7, hc⟩ := ih h
      refine ⟨h', by rw [Hand.addItems, if_neg hd]; exact e, h7, fun k hk => ?_⟩
      rw [hc k hk, itemCount_cons, if_neg (fun h => hd h.2)]; omega

theorem addItems_total (c : Color) (items : List HandItem) (h : Hand) (hv : h.Valid) :
    ∃ o, Hand.addItems c h items = .ok o ∧ ∀ h', o = some h' → h'.Valid := by
  induction items generalizing h with
  | nil => exact ⟨_, rfl, by rintro h' ⟨⟩; exact hv⟩
  | cons i items ih =>
    obtain ⟨n, k', d⟩ := i
    by_cases hd : d = c
    · obtain ⟨o, e, ho⟩ := addTimes_total h k' n hv
      rw [Hand.addItems, if_pos hd, e]
      cases o with
      | none => exact ⟨none, rfl, by simp⟩
      | some h' => exact ih h' (ho h' rfl)
    · rw [Hand.addItems, if_neg hd]; exact ih h hv

omit P in
theorem handLetter_inHand (b : U8) (k : PieceKind) (c : Color)
    (h : parseHandLetter b = some (k, c)) : k.InHand := by
  have key : ∀ n < 256, ∀ kc ∈ parseHandLetter (BitVec.ofNat 8 n), kc.1.InHand := by
    decide +kernel
  have := key b.toNat b.isLt (k, c)
  rw [BitVec.ofNat_toNat, BitVec.setWidth_eq] at this
  exact this h

omit P in
theorem handItems_inHand (l : List U8) (acc : Option Nat) (items : List HandItem)
    (h : parseHandItems acc l = some items) : ∀ i ∈ items, i.2.1.InHand := by
  induction l generalizing acc items with
  | nil =>
    cases acc with
    | none => rw [parseHandItems] at h; cases h; simp
    | some _ => rw [parseHandItems] at h; cases h
  | cons b l ih =>
    rw [parseHandItems] at h
    split at h
    · exact ih _ _ h
    · split at h
      · cases h
      · rename_i kc hkc
        rw [Option.map_eq_some_iff] at h
        obtain ⟨rest, h1, rfl⟩ := h
        intro i hi
        rcases List.mem_cons.1 hi with rfl | hi
        · exact handLetter_inHand b _ _ hkc
        · exact ih _ _ h1 i hi

omit P in
theorem sfen_inHand {l : List U8} {S : Sfen} (h : parseSfen l = some S) :
    ∀ i ∈ S.hands, i.2.1.InHand := by
  unfold parseSfen at h
  split at h
  · split at h
    · rename_i hh _
      cases h
      unfold parseHands at hh
      split at hh
      · cases hh; simp
      · exact handItems_inHand _ _ _ hh
    · cases h
  · cases h

/-! ### Setting up -/

omit P in
theorem boardSquares_mem (s : Square) : s ∈ boardSquares ↔ s.Valid := by
  constructor
  · have : ∀ s ∈ boardSquares, s.Valid := by decide +kernel
    exact this s
  · have : ∀ i < 81, Square.ofIdx i ∈ boardSquares := by decide +kernel
    exact Square.forall_valid (p := fun s => s ∈ boardSquares) this s

omit P in
theorem lastWrite_append {α : Type} (f : Edit → Option α) (l l' : List Edit) :
    lastWrite f (l ++ l') = (lastWrite f l').or (lastWrite f l) := by
  unfold lastWrite
  rw [List.reverse_append, List.findSome?_append]

omit P in
theorem lastWrite_pieces (g : Square → Option Piece) (l : List Square) (s : Square) :
    lastWrite (Edit.atSquare s) (l.map fun s => .piece s (g s)) =
      if s ∈ l then some (g s) else none := by
  induction l with
  | nil => rfl
  | cons t l ih =>
    rw [List.map_cons, lastWrite_cons, ih]
    by_cases h : s ∈ l
    · simp [h]
    · by_cases e : t = s
      · subst e; simp [h, Edit.atSquare]
      · simp [h, Edit.atSquare, e, Ne.symm e]

omit P in
theorem lastWrite_none {α : Type} (f : Edit → Option α) (l : List Edit) (h : ∀ e ∈ l, f e = none) :
    lastWrite f l = none := by
  unfold lastWrite
  rw [List.findSome?_eq_none_iff]
  exact fun e he => h e (List.mem_reverse.1 he)

/-- The calls that set up a board `g`. -/
def boardEdits (g : Square → Option Piece) (b w : Hand) (c : Color) (n : U16) : List Edit :=
  boardSquares.map (fun s => .piece s (g s)) ++ [.hand .Black b, .hand .White w, .side c, .ply n]

/-- Where the last king is placed. -/
def lastKing (g : Square → Option Piece) (c : Color) : Option Square :=
  boardSquares.reverse.find? fun s => g s = some (Piece.mk' .King c)

theorem empty_answers : PartialPosition.empty.Answers
    ⟨fun _ => none, fun _ => Hand.new, .Black, 1, none, fun _ => none⟩ := by
  refine ⟨fun s hs => ?_, fun c => ?_, rfl, rfl, ?_, fun c => ?_⟩
  · rw [piece_at_ok _ hs]
    have : ∀ i < 81, PartialPosition.empty.cell i = none := by decide +kernel
    rw [this _ (Square.idx0_lt hs)]
  · rw [hand_of_a_player_ok]; cases c <;> rfl
  · exact rfl
  · rw [king_position_ok]; cases c <;> rfl

theorem boardEdits_ok (g : Square → Option Piece) (hg : ∀ s x, s.Valid → g s = some x → x.Valid)
    (b w : Hand) (hb : b.Valid) (hw : w.Valid) (c : Color) (n : U16) :
    ∃ p, runEdits PartialPosition.empty (boardEdits g b w c n) = .ok p ∧ ApiReach p ∧
      p.Answers ⟨g, fun d => match d with | .Black => b | .White => w, c, if n = 0 then 1 else n,
        none, lastKing g⟩ := by
  obtain ⟨p, e, hr, ha⟩ := C63_program _ .empty _ empty_answers (boardEdits g b w c n) (by
    intro e he
    rcases List.mem_append.1 he with he | he
    · obtain ⟨s, hs, rfl⟩ := List.mem_map.1 he
      have hs := (boardSquares_mem s).1 hs
      exact ⟨hs, fun x hx => hg s x hs hx⟩
    · simp at he
      rcases he with rfl | rfl | rfl | rfl
      · exact hb
      · exact hw
      · trivial
      · trivial)
  have side : ∀ {α : Type} (f : Edit → Option α), (∀ s o, f (.piece s o) = none) →
      lastWrite f (boardSquares.map fun s => .piece s (g s)) = none := by
    intro α f hf
    apply lastWrite_none
    intro e he
    obtain ⟨s, hs, rfl⟩ := List.mem_map.1 he
    exact hf s _
  refine ⟨p, e, hr, ⟨fun s hs => ?_, fun d => ?_, ?_, ?_, ha.last, fun d => ?_⟩⟩
  · rw [ha.board s hs]
    simp only [Setup.after, boardEdits]
    rw [lastWrite_append, lastWrite_none _ [_, _, _, _] (by simp [Edit.atSquare]),
      lastWrite_pieces, if_pos ((boardSquares_mem s).2 hs)]
    rfl
  · rw [ha.hands d]
    simp only [Setup.after, boardEdits]
    rw [lastWrite_append, side _ (fun _ _ => rfl)]
    cases d <;> rfl
  · rw [ha.side]
    simp only [Setup.after, boardEdits]
    rw [lastWrite_append, side _ (fun _ _ => rfl)]
    rfl
  · rw [ha.ply]
    simp only [Setup.after, boardEdits]
    rw [lastWrite_append, side _ (fun _ _ => rfl)]
    by_cases h0 : n = 0
    · subst h0; rfl
    · rw [if_neg h0]
      simp only [lastWrite, List.reverse_cons, List.reverse_nil, List.nil_append,
        List.cons_append, List.findSome?_cons, Edit.atPly, if_neg h0]
      rfl
  · rw [ha.king d]
    simp only [Setup.after, boardEdits]
    rw [lastWrite_append, lastWrite_none _ [_, _, _, _] (by simp [Edit.kingTo])]
    simp only [Option.none_or, Option.or_none, lastKing, lastWrite, ← List.map_reverse]
    congr 1
    induction boardSquares.reverse with
    | nil => rfl
    | cons s l ih =>
      rw [List.map_cons, List.findSome?_cons, List.find?_cons]
      by_cases e : g s = some (Piece.mk' .King d)
      · simp [Edit.kingTo, e]
      · simp [Edit.kingTo, e, ih]

omit P in
theorem sfen_on_valid (S : Sfen) (s : Square) (x : Piece) (h : S.on s = some x) : x.Valid := by
  unfold Sfen.on Cell.piece at h
  rw [Option.map_eq_some_iff] at h
  obtain ⟨kc, _, rfl⟩ := h
  exact Piece.mk'_valid _ _

theorem setUp_ok (S : Sfen) (hi : ∀ i ∈ S.hands, i.2.1.InHand) (hn : S.ply < 65536) :
    ∃ (b w : Hand) (p : PartialPosition), S.setUp = .ok (some p) ∧ ApiReach p ∧ b.Valid ∧ w.Valid ∧
      (∀ k hk, (b.cell k hk).toNat = itemCount S.hands k .Black % 256) ∧
      (∀ k hk, (w.cell k hk).toNat = itemCount S.hands k .White % 256) ∧
      p.Answers ⟨S.on, fun d => match d with | .Black => b | .White => w, S.side,
        if BitVec.ofNat 16 S.ply = 0 then 1 else BitVec.ofNat 16 S.ply, none, lastKing S.on⟩ := by
  obtain ⟨b, eb, b7, hb⟩ := addItems_ok .Black S.hands hi Hand.new
  obtain ⟨w, ew, w7, hw⟩ := addItems_ok .White S.hands hi Hand.new
  have bv : b.Valid := b7
  have wv : w.Valid := w7
  obtain ⟨p, e, hr, ha⟩ := boardEdits_ok S.on (fun s x _ h => sfen_on_valid S s x h) b w bv wv S.side
    (BitVec.ofNat 16 S.ply)
  refine ⟨b, w, p, ?_, hr, bv, wv, ?_, ?_, ha⟩
  · unfold Sfen.setUp
    simp only [eb, ew, Res.bind_ok, if_pos hn]
    unfold boardEdits at e
    rw [e]; rfl
  · intro k hk; rw [hb k hk, Hand.cell_new]; simp
  · intro k hk; rw [hw k hk, Hand.cell_new]; simp

omit P in
theorem square_coords {s : Square} (h : s.Valid) :
    s = Square.at ((s.val.toNat - 1) / 9 + 1) ((s.val.toNat - 1) % 9 + 1) ∧
    (s.val.toNat - 1) / 9 < 9 ∧ (s.val.toNat - 1) % 9 < 9 := by
  have : ∀ i < 81, Square.ofIdx i = Square.at (((Square.ofIdx i).val.toNat - 1) / 9 + 1)
      (((Square.ofIdx i).val.toNat - 1) % 9 + 1) ∧ ((Square.ofIdx i).val.toNat - 1) / 9 < 9 ∧
      ((Square.ofIdx i).val.toNat - 1) % 9 < 9 := by decide +kernel
  exact Square.forall_valid (p := fun s => s = Square.at ((s.val.toNat - 1) / 9 + 1)
    ((s.val.toNat - 1) % 9 + 1) ∧ (s.val.toNat - 1) / 9 < 9 ∧ (s.val.toNat - 1) % 9 < 9) this s h

omit P in
theorem lastKing_congr {g g' : Square → Option Piece} (h : ∀ s : Square, s.Valid → g s = g' s)
    (c : Color) : lastKing g c = lastKing g' c := by
  unfold lastKing
  have : ∀ l : List Square, (∀ s ∈ l, s.Valid) →
      (l.find? fun s => g s = some (Piece.mk' .King c)) =
        l.find? fun s => g' s = some (Piece.mk' .King c) := by
    intro l hl
    induction l with
    | nil => rfl
    | cons s l ih =>
      rw [List.find?_cons, List.find?_cons, h s (hl s (by simp)), ih fun t ht => hl t (by simp [ht])]
  exact this _ fun s hs => (boardSquares_mem s).1 (List.mem_reverse.1 hs)

/-- Setting up what the SFEN text of a position says. -/
theorem setUp_parse (p : PartialPosition) (hp : ApiReach p) (K : Setup) (hK : p.Answers K) :
    ∃ txt S p', p.to_sfen_owned = .ok txt ∧ parseSfen txt = some S ∧ S.setUp = .ok (some p') ∧
      ApiReach p' ∧ p'.Answers ⟨K.board, K.hands, K.side, if K.ply = 0 then 1 else K.ply, none,
        lastKing K.board⟩ := by
  obtain ⟨txt, S, h1, h2, h3, h4, h5, h6⟩ := C36_lossless p hp
  have hlt := p.get_ply.isLt
  obtain ⟨b, w, p', e, hr, bv, wv, hb, hw, ha⟩ := setUp_ok S (sfen_inHand h2) (by omega)
  have board : ∀ s : Square, s.Valid → S.on s = K.board s := by
    intro s hs
    obtain ⟨g1, g2, g3⟩ := square_coords hs
    have := h3 ((s.val.toNat - 1) / 9 + 1) ((s.val.toNat - 1) % 9 + 1) (by omega) (by omega)
    rw [← g1, hK.board s hs] at this
    exact (Res.ok.inj this).symm
  have cnt : ∀ (c : Color) (h : Hand), h.Valid →
      (∀ k hk, (h.cell k hk).toNat = itemCount S.hands k c % 256) → h = K.hands c := by
    intro c h hv hc
    have hkc := hK.hands c
    rw [hand_of_a_player_ok] at hkc
    rw [← Res.ok.inj hkc]
    refine Hand.ext_cells (fun k hk => ?_) (hv.trans ((reach_ok hp).hand c).symm)
    obtain ⟨n, e1, e2⟩ := h5 k c hk
    rw [hand_ok, Hand.count_ok, dif_pos hk] at e1
    simp only [Res.ok.injEq, Option.some.injEq] at e1
    apply BitVec.eq_of_toNat_eq
    rw [hc k hk, e2, ← e1]
    exact Nat.mod_eq_of_lt (p.handOf c |>.cell k hk).isLt
  refine ⟨txt, S, p', h1, h2, e, hr, ⟨?_, ?_, ?_, ?_, ha.last, ?_⟩⟩
  · intro s hs; rw [ha.board s hs]; exact congrArg _ (board s hs)
  · intro c
    rw [ha.hands c]
    cases c
    · exact congrArg _ (cnt .Black b bv hb)
    · exact congrArg _ (cnt .White w wv hw)
  · rw [ha.side]; exact h4.trans hK.side
  · rw [ha.ply]
    have : BitVec.ofNat 16 S.ply = K.ply := by
      rw [h6, ← hK.ply]; simp
    simp only [this]
  · intro c
    rw [ha.king c]
    exact congrArg _ (lastKing_congr board c)

theorem Answers.agree {p q : PartialPosition} {K L : Setup} (h : p.Answers K) (h' : q.Answers L)
    (hb : ∀ s : Square, s.Valid → K.board s = L.board s) (hh : ∀ c, K.hands c = L.hands c)
    (hs : K.side = L.side) (hn : K.ply = L.ply) : p.Agree q := by
  refine ⟨fun s hs => ?_, fun k c hk => ?_, ?_, ?_⟩
  · rw [h.board s hs, h'.board s hs, hb s hs]
  · have h1 := h.hands c
    have h2 := h'.hands c
    rw [hand_of_a_player_ok] at h1 h2
    rw [hand_ok, hand_ok, Res.ok.inj h1, Res.ok.inj h2, hh c]
  · rw [h.side, h'.side, hs]
  · rw [h.ply, h'.ply, hn]

/-! ### Texts -/

omit P in
theorem spaced_cons (w : List U8) {ws : List (List U8)} (h : ws ≠ []) :
    spaced (w :: ws) = w ++ asciiByte ' ' :: spaced ws := by
  cases ws with
  | nil => exact absurd rfl h
  | cons v ws => rfl

omit P in
theorem fields_spaced {ws : List (List U8)} (h : ws ≠ []) (hs : ∀ w ∈ ws, asciiByte ' ' ∉ w) :
    fields (asciiByte ' ') (spaced ws) = ws := by
  induction ws with
  | nil => exact absurd rfl h
  | cons w ws ih =>
    have hw := hs w (by simp)
    by_cases hn : ws = []
    · subst hn; exact fields_none hw
    · rw [spaced_cons w hn, fields_cons hw, ih hn fun v hv => hs v (by simp [hv])]

omit P in
theorem spaced_inner {bs : List (List U8)} (h : bs ≠ []) (cs : List (List U8)) :
    spaced (spaced bs :: cs) = spaced (bs ++ cs) := by
  induction bs with
  | nil => exact absurd rfl h
  | cons b bs ih =>
    by_cases hn : bs = []
    · subst hn; rfl
    · have h2 : bs ++ cs ≠ [] := fun e => hn (List.append_eq_nil_iff.1 e).1
      rw [List.cons_append, spaced_cons b h2, ← ih hn, spaced_cons b hn]
      by_cases hc : cs = []
      · subst hc; rfl
      · rw [spaced_cons _ hc, spaced_cons _ hc, List.append_assoc, List.cons_append]

/-- The four words of an SFEN. -/
theorem sfen_words {p : PartialPosition} (hp : ApiReach p) :
    ∃ w1 w2 w3 w4, p.to_sfen_owned = .ok (spaced [w1, w2, w3, w4]) ∧
      ∀ w ∈ [w1, w2, w3, w4], asciiByte ' ' ∉ w := by
  refine ⟨p.boardChunks.flatten, colorText p.side, handsText (p.handOf .Black) (p.handOf .White),
    decimal p.ply.toNat, ?_, ?_⟩
  · rw [to_sfen_owned_ok (reach_ok hp), sfen_text]; rfl
  · intro w hw
    simp only [List.mem_cons, List.not_mem_nil, or_false] at hw
    rcases hw with rfl | rfl | rfl | rfl
    · exact (parse_board p).2
    · cases p.side <;> decide
    · intro h
      rcases handText_bytes _ _ _ h with h | h
      · exact absurd h (by decide)
      · exact absurd h (by decide)
    · intro h
      exact absurd (decimal_digits _ _ h) (by decide)

omit P in
theorem squareText_no_space {s : Square} (h : s.Valid) : asciiByte ' ' ∉ squareText s := by
  have : ∀ i < 81, asciiByte ' ' ∉ squareText (Square.ofIdx i) := by decide +kernel
  exact Square.forall_valid (p := fun s => asciiByte ' ' ∉ squareText s) this s h

theorem move_word {m : Move} (h : m.Valid) : ∃ w, to_usi_owned m.to_usi = .ok w ∧
    parseUsi w = some m.forget ∧ asciiByte ' ' ∉ w := by
  obtain ⟨w, e, hw⟩ := C14_parse m h
  refine ⟨w, e, hw, ?_⟩
  rw [to_usi_owned_wr (move_to_usi h)] at e
  cases e
  cases m with
  | Normal s t pr =>
    have h1 := squareText_no_space h.1
    have h2 := squareText_no_space h.2
    have h3 : asciiByte ' ' ∉ ascii "+" := by decide
    cases pr <;> simp [moveChunks, h1, h2, h3]
  | Drop x t =>
    have h2 := squareText_no_space h.2
    have h3 : asciiByte ' ' ∉ ascii "*" := by decide
    have h4 : ∀ k, asciiByte ' ' ∉ kindText k := by decide
    simp [moveChunks, h2, h3, h4]

theorem moves_words (l : List Move) (h : ∀ m ∈ l, m.Valid) : ∃ ws,
    eachOk (l.map fun m => to_usi_owned m.to_usi) = .ok ws ∧ parseEach parseUsi ws =
      some (l.map Move.forget) ∧ (∀ w ∈ ws, asciiByte ' ' ∉ w) ∧ (ws = [] ↔ l = []) := by
  induction l with
  | nil => exact ⟨[], rfl, rfl, by simp, by simp⟩
  | cons m l ih =>
    obtain ⟨w, e1, e2, e3⟩ := move_word (h m (by simp))
    obtain ⟨ws, f1, f2, f3, _⟩ := ih fun m hm => h m (by simp [hm])
    refine ⟨w :: ws, ?_, ?_, ?_, by simp⟩
    · rw [List.map_cons, eachOk, e1, Res.bind_ok, f1]; rfl
    · rw [parseEach, e2, f2]; rfl
    · intro v hv
      rcases List.mem_cons.1 hv with rfl | hv
      · exact e3
      · exact f3 v hv

/-- The line is taken apart as it was put together. -/
theorem send_parse {Q : Position} (hp : ApiReach Q.initial) (hl : ∀ m ∈ Q.moves, m.Valid)
    {txt : List U8} {S : Sfen} (e : Q.initial.to_sfen_owned = .ok txt)
    (hS : parseSfen txt = some S) :
    ∃ line, Q.send = .ok line ∧ parseLine line = some (S, Q.moves.map Move.forget) := by
  obtain ⟨w1, w2, w3, w4, e1, hw⟩ := sfen_words hp
  rw [e] at e1; cases e1
  obtain ⟨ws, f1, f2, f3, f4⟩ := moves_words Q.moves hl
  refine ⟨spaced ([ascii "position", ascii "sfen", spaced [w1, w2, w3, w4]] ++
    if ws = [] then [] else ascii "moves" :: ws), ?_, ?_⟩
  · unfold Position.send
    simp only [Position.initial_position, Position.get_moves, e, f1, Res.bind_ok, Res.pure_eq]
  · have e2 : spaced ([ascii "position", ascii "sfen", spaced [w1, w2, w3, w4]] ++
        if ws = [] then [] else ascii "moves" :: ws) =
        spaced ([ascii "position", ascii "sfen", w1, w2, w3, w4] ++
          if ws = [] then [] else ascii "moves" :: ws) := by
      simp only [List.cons_append, List.nil_append]
      rw [spaced_cons _ (by simp), spaced_cons _ (by simp), spaced_inner (by simp)]
      rw [spaced_cons _ (by simp), spaced_cons _ (by simp)]
      rfl
    rw [e2]
    unfold parseLine
    rw [fields_spaced (by simp)]
    · simp only [List.cons_append, List.nil_append, and_self, if_true, hS]
      by_cases hn : ws = []
      · have := f4.1 hn
        simp [hn, this]
      · simp only [if_neg hn, if_true, f2]
        rfl
    · intro w h
      simp only [List.cons_append, List.nil_append, List.mem_cons] at h hw
      rcases h with rfl | rfl | h | h | h | h | h
      · decide
      · decide
      · exact hw w (by simp [h])
      · exact hw w (by simp [h])
      · exact hw w (by simp [h])
      · exact hw w (by simp [h])
      · split at h
        · simp at h
        · rcases List.mem_cons.1 h with rfl | h
          · decide
          · exact f3 w h

/-! ### Playing -/

/-- The text of an acceptable move is read as that move. -/
theorem toMove_forget {p : PartialPosition} {m : Move} (ha : p.Acceptable m) :
    m.forget.toMove p.side_to_move = m := by
  cases m with
  | Normal s t pr => rfl
  | Drop x t =>
    obtain ⟨k, n, rfl, _⟩ := ha
    simp only [Move.forget, UsiMove.toMove, kindOfPiece_mk']

theorem playAll_ok {l : List Move} : ∀ {p p' r : PartialPosition}, ApiReach p → ApiReach p' →
    p.Agree p' → (∀ m ∈ l, m.Valid) → p.replay l = .ok (some r) → ∀ Q : Position, Q.inner = p' →
    ∃ r', Q.playAll (l.map Move.forget) = .ok (some ⟨Q.initial, r', Q.moves ++ l⟩) ∧
      p'.replay l = .ok (some r') := by
  induction l with
  | nil =>
    rintro p p' r _ _ _ _ _ Q rfl
    exact ⟨Q.inner, by rw [List.append_nil]; rfl, rfl⟩
  | cons m l ih =>
    rintro p p' r hp hp' ha hv e Q rfl
    have hm := hv m (by simp)
    rw [replay] at e
    rcases make_move_ok (reach_ok hp) hm with ⟨_, q, e1, _⟩ | ⟨_, e1⟩
    · rw [e1] at e
      simp only [Res.bind_ok, Option.isSome_some, if_true] at e
      have hacc := ha.acceptable hm ((C28_accept_iff p hp m hm).1.2 ⟨q, e1⟩)
      obtain ⟨q', e2⟩ := (C28_accept_iff Q.inner hp' m hm).1.1 hacc
      obtain ⟨_, ha', _⟩ := ha.step hp hp' hm hm e1 e2 rfl
      obtain ⟨r', e3, e4⟩ := ih (.step hp (.make_move hm e1)) (.step hp' (.make_move hm e2)) ha'
        (fun x hx => hv x (by simp [hx])) e ⟨Q.initial, q', Q.moves ++ [m]⟩ rfl
      refine ⟨r', ?_, ?_⟩
      · rw [List.map_cons, Position.playAll, Position.side_to_move, toMove_forget hacc,
          Position.make_move, e2]
        simp only [Res.bind_ok, Res.pure_eq, e3, List.append_assoc, List.singleton_append]
      · rw [replay, e2]
        simpa only [Res.bind_ok, Option.isSome_some, if_true] using e4
    · rw [e1] at e
      simp at e

/-- The receiver's moves make a game. -/
theorem playAll_from {p : PartialPosition} {us : List UsiMove}
    (hv : ∀ u ∈ us, ∀ c, (UsiMove.toMove c u).Valid) : ∀ {Q R : Position} {l : List Move},
    Position.From p l Q → Q.playAll us = .ok (some R) → ∃ l', Position.From p l' R := by
  induction us with
  | nil => intro Q R l h e; rw [Position.playAll] at e; cases e; exact ⟨l, h⟩
  | cons u us ih =>
    intro Q R l h e
    rw [Position.playAll] at e
    cases e1 : Q.make_move (u.toMove Q.side_to_move) with
    | ok v =>
      obtain ⟨Q', o⟩ := v
      rw [e1] at e
      cases o with
      | none => cases e
      | some x =>
        exact ih (fun u hu => hv u (by simp [hu])) (.make_move h (hv u (by simp) _) e1) e
    | panic => rw [e1] at e; cases e
    | ub => rw [e1] at e; cases e

theorem playAll_total {us : List UsiMove} (hv : ∀ u ∈ us, ∀ c, (UsiMove.toMove c u).Valid) :
    ∀ Q : Position, ApiReach Q.inner → ∃ o, Q.playAll us = .ok o := by
  induction us with
  | nil => intro Q _; exact ⟨_, rfl⟩
  | cons u us ih =>
    intro Q hQ
    have hm := hv u (by simp) Q.side_to_move
    rw [Position.playAll, Position.make_move]
    rcases make_move_ok (reach_ok hQ) hm with ⟨_, q, e1, _⟩ | ⟨_, e1⟩
    · rw [e1]
      exact ih (fun u hu => hv u (by simp [hu])) ⟨_, q, _⟩ (.step hQ (.make_move hm e1))
    · rw [e1]; exact ⟨none, rfl⟩

theorem parseSquare_valid {f r : U8} {s : Square} (h : parseSquare f r = some s) : s.Valid := by
  unfold parseSquare at h
  split at h
  · rename_i hc
    cases h
    exact (at_idx (by omega) (by omega)).1
  · cases h

theorem parseUsi_valid {w : List U8} {u : UsiMove} (h : parseUsi w = some u) (c : Color) :
    (UsiMove.toMove c u).Valid := by
  have drop : ∀ (o : Option PieceKind) (q : Option Square), (∀ s, q = some s → s.Valid) →
      (do return UsiMove.drop (← o) (← q) : Option UsiMove) = some u →
      (UsiMove.toMove c u).Valid := by
    intro o q hq h
    cases o with
    | none => cases h
    | some k =>
      cases q with
      | none => cases h
      | some t => cases h; exact ⟨Piece.mk'_valid _ _, hq t rfl⟩
  have normal : ∀ (o q : Option Square) (pr : Bool), (∀ s, o = some s → s.Valid) →
      (∀ s, q = some s → s.Valid) →
      (do return UsiMove.normal (← o) (← q) pr : Option UsiMove) = some u →
      (UsiMove.toMove c u).Valid := by
    intro o q pr ho hq h
    cases o with
    | none => cases h
    | some k =>
      cases q with
      | none => cases h
      | some t => cases h; exact ⟨ho k rfl, hq t rfl⟩
  unfold parseUsi at h
  split at h
  · split at h
    · exact drop _ _ (fun _ => parseSquare_valid) h
    · exact normal _ _ _ (fun _ => parseSquare_valid) (fun _ => parseSquare_valid) h
  · split at h
    · split at h
      · exact drop _ _ (fun _ => parseSquare_valid) h
      · cases h
    · split at h
      · exact normal _ _ _ (fun _ => parseSquare_valid) (fun _ => parseSquare_valid) h
      · cases h
  · cases h

theorem parseEach_valid {ws : List (List U8)} {us : List UsiMove}
    (h : parseEach parseUsi ws = some us) : ∀ u ∈ us, ∀ c, (UsiMove.toMove c u).Valid := by
  induction ws generalizing us with
  | nil => rw [parseEach] at h; cases h; simp
  | cons w ws ih =>
    rw [parseEach] at h
    split at h
    · rename_i a as h1 h2
      cases h
      intro u hu
      rcases List.mem_cons.1 hu with rfl | hu
      · exact fun c => parseUsi_valid h1 c
      · exact ih h2 u hu
    · cases h

theorem parseLine_valid {line : List U8} {S : Sfen} {us : List UsiMove}
    (h : parseLine line = some (S, us)) :
    (∀ i ∈ S.hands, i.2.1.InHand) ∧ ∀ u ∈ us, ∀ c, (UsiMove.toMove c u).Valid := by
  unfold parseLine at h
  split at h
  · split at h
    · split at h
      · cases h
      · rename_i hS
        split at h
        · cases h; exact ⟨sfen_inHand hS, by simp⟩
        · split at h
          · rw [Option.map_eq_some_iff] at h
            obtain ⟨us', h1, h2⟩ := h
            cases h2
            exact ⟨sfen_inHand hS, parseEach_valid h1⟩
          · cases h
    · cases h
  · cases h

/-! ### C66 -/

/-- The whole way, with the position the receiver starts from. -/
theorem wire_core (p : PartialPosition) (hp : ApiReach p) (K : Setup) (hK : p.Answers K)
    (hn : K.ply ≠ 0) (l : List Move) (Q : Position) (h : Position.From p l Q) :
    ∃ line p' R, Q.send = .ok line ∧ Position.receive line = .ok (some R) ∧ ApiReach p' ∧
      p'.Answers ⟨K.board, K.hands, K.side, K.ply, none, lastKing K.board⟩ ∧
      Position.From p' l R := by
  obtain ⟨a1, a2, a3, a4, _⟩ := C33_replay p hp l Q h
  obtain ⟨txt, S, p', e1, e2, e3, hr, ha⟩ := setUp_parse p hp K hK
  rw [if_neg hn] at ha
  simp only [Position.initial_position, Position.get_moves] at a1 a2
  obtain ⟨line, s1, s2⟩ := send_parse (Q := Q) (by rw [a1]; exact hp) (by rw [a2]; exact a4)
    (by rw [a1]; exact e1) e2
  have hag : p.Agree p' := Answers.agree hK ha (fun _ _ => rfl) (fun _ => rfl) rfl rfl
  obtain ⟨r', f1, f2⟩ := playAll_ok hp hr hag a4 a3 (Position.arbitrary_position p') rfl
  have hrec : Position.receive line = .ok (some ⟨p', r', l⟩) := by
    unfold Position.receive
    rw [s2]
    simp only [e3, Res.bind_ok, a2]
    exact f1
  refine ⟨line, p', _, s1, hrec, hr, ha, ?_⟩
  have build : ∀ (l : List Move) (p0 q r : PartialPosition) (l0 : List Move), (∀ m ∈ l, m.Valid) →
      Position.From p0 l0 ⟨p0, q, l0⟩ → q.replay l = .ok (some r) →
      Position.From p0 (l0 ++ l) ⟨p0, r, l0 ++ l⟩ := by
    intro l
    induction l with
    | nil => intro p0 q r l0 _ hf e; rw [replay] at e; cases e; simpa using hf
    | cons m l ih =>
      intro p0 q r l0 hv hf e
      rw [replay] at e
      cases e1 : q.make_move m with
      | ok v =>
        obtain ⟨q', o⟩ := v
        rw [e1] at e
        cases o with
        | none => simp at e
        | some x =>
          simp only [Res.bind_ok, Option.isSome_some, if_true] at e
          have := Position.From.make_move hf (hv m (by simp)) (r := ⟨p0, q', l0 ++ [m]⟩) (v := some ())
            (by simp only [Position.make_move, e1, Res.bind_ok, Res.pure_eq])
          simp only [Option.isSome_some, if_true] at this
          have := ih p0 q' r (l0 ++ [m]) (fun x hx => hv x (by simp [hx])) this e
          simpa using this
      | panic => rw [e1] at e; cases e
      | ub => rw [e1] at e; cases e
  simpa using build l p' p' r' [] a4 .start f2

/-- C66: the receiver of the line gets the game that was sent: the same moves, and the same
board, hands, side to move and move number at the beginning and at the end; and it would send the
same line. -/
theorem C66_transmission (p : PartialPosition) (hp : ApiReach p) (hn : p.get_ply ≠ 0)
    (l : List Move) (Q : Position) (h : Position.From p l Q) :
    ∃ line R, Q.send = .ok line ∧ Position.receive line = .ok (some R) ∧
      R.get_moves = Q.get_moves ∧ R.initial_position.Agree Q.initial_position ∧
      R.get_inner.Agree Q.get_inner ∧
      (Q.get_moves ≠ [] → R.last_move = Q.last_move ∧
        R.last_compact_move = Q.last_compact_move) ∧
      R.send = .ok line := by
  obtain ⟨K, hK⟩ := C62_answers p hp
  obtain ⟨line, p', R, e1, e2, hr, ha, hR⟩ := wire_core p hp K hK (by rw [← hK.ply]; exact hn) l Q h
  obtain ⟨a1, a2, a3, a4, _⟩ := C33_replay p hp l Q h
  obtain ⟨b1, b2, b3, b4, _⟩ := C33_replay p' hr l R hR
  have hag : p'.Agree p := Answers.agree ha hK (fun _ _ => rfl) (fun _ => rfl) rfl rfl
  have hmv : R.get_moves = Q.get_moves := b2.trans a2.symm
  have hsf : p'.to_sfen_owned = p.to_sfen_owned := by
    obtain ⟨c1, c2⟩ : p'.boardChunks = p.boardChunks ∧ ∀ c, p'.handOf c = p.handOf c := by
      constructor
      · have key : ∀ r, 1 ≤ r ∧ r ≤ 9 → p'.rankCells r = p.rankCells r := by
          intro r hr
          unfold rankCells
          apply List.map_congr_left
          intro f hf
          have hf' : 1 ≤ f ∧ f ≤ 9 := by simp at hf; omega
          rw [hag.board _ (at_idx hf' hr).1]
        simp only [boardChunks, List.flatMap_cons, List.flatMap_nil, key 1 (by omega),
          key 2 (by omega), key 3 (by omega), key 4 (by omega), key 5 (by omega), key 6 (by omega),
          key 7 (by omega), key 8 (by omega), key 9 (by omega)]
      · intro c
        have h1 := ha.hands c
        have h2 := hK.hands c
        rw [hand_of_a_player_ok] at h1 h2
        exact (Res.ok.inj h1).trans (Res.ok.inj h2).symm
    rw [to_sfen_owned_ok (reach_ok hr), to_sfen_owned_ok (reach_ok hp)]
    simp only [sfenChunks, c1, c2, hag.side, hag.ply]
  refine ⟨line, R, e1, e2, hmv, by rw [a1, b1]; exact hag, ?_, ?_, ?_⟩
  · exact (hag.replay hr hp b4 a4 b3 a3 rfl).2.1
  · intro hne
    rw [a2] at hne
    exact (hag.replay hr hp b4 a4 b3 a3 rfl).2.2 hne
  · rw [← e1]
    unfold Position.send
    rw [hmv, a1, b1, hsf]

/-- A game is determined by its initial position and its moves. -/
theorem from_unique {p : PartialPosition} (hp : ApiReach p) {l : List Move} {Q R : Position}
    (h : Position.From p l Q) (h' : Position.From p l R) : Q = R := by
  refine C54_moves p hp l l Q R h h' ?_
  simp only [Position.record, (C33_replay p hp l Q h).2.1, (C33_replay p hp l R h').2.1]

/-- C66: if the initial position has no last move and `king_position` reports exactly the kings on
the board - as after `startpos` - the receiver's game is identical, hidden fields included. -/
theorem C66_exact (p : PartialPosition) (hp : ApiReach p) (hl : p.get_last_move = .ok none)
    (hk : ∀ c (s : Square), s.Valid →
      (p.king_position c = .ok (some s) ↔ p.piece_at s = .ok (some (Piece.mk' .King c))))
    (l : List Move) (Q : Position) (h : Position.From p l Q) :
    ∃ line, Q.send = .ok line ∧ Position.receive line = .ok (some Q) := by
  obtain ⟨K, hK⟩ := C62_answers p hp
  have hpos := (C62_exact K).1 ⟨p, hp, hK⟩
  have hlast : K.last = none := by
    have := hK.last
    rw [hl] at this
    exact (Res.ok.inj this).symm
  obtain ⟨line, p', R, e1, e2, hr, ha, hR⟩ := wire_core p hp K hK
    (fun e => hpos.ply e hlast) l Q h
  have hking : ∀ c, lastKing K.board c = K.king c := by
    intro c
    have hkc : ∀ s : Square, s.Valid → (K.king c = some s ↔ K.board s = some (Piece.mk' .King c)) := by
      intro s hs
      have := hk c s hs
      rw [hK.king c, hK.board s hs] at this
      simpa using this
    cases e : lastKing K.board c with
    | some s =>
      have h1 : s.Valid := (boardSquares_mem s).1 (List.mem_reverse.1 (List.mem_of_find?_eq_some e))
      have h2 := List.find?_some e
      exact ((hkc s h1).2 (by simpa using h2)).symm
    | none =>
      cases e' : K.king c with
      | none => rfl
      | some s =>
        have h1 := hpos.king_valid c s e'
        have h2 := (hkc s h1).1 e'
        unfold lastKing at e
        rw [List.find?_eq_none] at e
        exact absurd (by simpa using h2) (e s (List.mem_reverse.2 ((boardSquares_mem s).2 h1)))
  have : p' = p := C62_determined p' p hr hp _ ha
    ⟨hK.board, hK.hands, hK.side, hK.ply, hl, fun c => (hK.king c).trans (congrArg _ (hking c).symm)⟩
  subst this
  exact ⟨line, e1, by rw [e2, from_unique hp h hR]⟩

/-- C66: the receiver survives every line: whatever bytes arrive, it neither panics nor runs into
undefined behaviour, and what it accepts is a game played from a position set up through the
API. -/
theorem C66_robust (line : List U8) : ∃ o, Position.receive line = .ok o ∧
    ∀ R, o = some R → ∃ p l, ApiReach p ∧ p.get_ply ≠ 0 ∧ Position.From p l R := by
  unfold Position.receive
  cases e : parseLine line with
  | none => exact ⟨none, rfl, by simp⟩
  | some v =>
    obtain ⟨S, us⟩ := v
    obtain ⟨h1, h2⟩ := parseLine_valid e
    by_cases hn : S.ply < 65536
    · obtain ⟨b, w, p, e1, hr, _, _, _, _, ha⟩ := setUp_ok S h1 hn
      simp only [e1, Res.bind_ok]
      obtain ⟨o, e2⟩ := playAll_total h2 (Position.arbitrary_position p) hr
      refine ⟨o, e2, ?_⟩
      rintro R rfl
      obtain ⟨l, hR⟩ := playAll_from h2 (.start : Position.From p [] _) e2
      refine ⟨p, l, hr, ?_, hR⟩
      rw [ha.ply]
      show ¬ (if BitVec.ofNat 16 S.ply = 0 then 1 else BitVec.ofNat 16 S.ply) = (0 : U16)
      split
      · decide
      · assumption
    · have : S.setUp = .ok none := by
        obtain ⟨b, eb, _, _⟩ := addItems_ok .Black S.hands h1 Hand.new
        obtain ⟨w, ew, _, _⟩ := addItems_ok .White S.hands h1 Hand.new
        unfold Sfen.setUp
        simp only [eb, ew, Res.bind_ok, if_neg hn, Res.pure_eq]
      simp only [this, Res.bind_ok]
      exact ⟨none, rfl, by simp⟩

/-- C66: sending a received game and receiving it again gives the identical game: nothing gets
lost or added on further hops. -/
theorem C66_stable (line : List U8) (R : Position) (h : Position.receive line = .ok (some R)) :
    ∃ line', R.send = .ok line' ∧ Position.receive line' = .ok (some R) := by
  unfold Position.receive at h
  cases e : parseLine line with
  | none => rw [e] at h; cases h
  | some v =>
    obtain ⟨S, us⟩ := v
    obtain ⟨h1, h2⟩ := parseLine_valid e
    rw [e] at h
    by_cases hn : S.ply < 65536
    · obtain ⟨b, w, p, e1, hr, _, _, _, _, ha⟩ := setUp_ok S h1 hn
      simp only [e1, Res.bind_ok] at h
      obtain ⟨l, hR⟩ := playAll_from h2 (.start : Position.From p [] _) h
      obtain ⟨line', p', R', f1, f2, hr', ha', hR'⟩ := wire_core p hr _ ha (by
        show ¬ (if BitVec.ofNat 16 S.ply = 0 then 1 else BitVec.ofNat 16 S.ply) = (0 : U16)
        split
        · decide
        · assumption) l R hR
      have : p' = p := C62_determined p' p hr' hr _ ha' ha
      subst this
      exact ⟨line', f1, by rw [f2, from_unique hr hR hR']⟩
    · have : S.setUp = .ok none := by
        obtain ⟨b, eb, _, _⟩ := addItems_ok .Black S.hands h1 Hand.new
        obtain ⟨w, ew, _, _⟩ := addItems_ok .White S.hands h1 Hand.new
        unfold Sfen.setUp
        simp only [eb, ew, Res.bind_ok, if_neg hn, Res.pure_eq]
      simp only [this, Res.bind_ok] at h
      cases h

/-- C66, the condition on the move number is needed: a position whose move number has wrapped
around to 0 writes an SFEN that cannot be set up again, because `ply_set` refuses 0. -/
theorem C66_refuted_ply : (∃ p, ApiReach p ∧ p.get_ply = 0) ∧
    ∀ p, ApiReach p → p.get_ply = 0 → ∃ line R, (Position.arbitrary_position p).send = .ok line ∧
      Position.receive line = .ok (some R) ∧ R.ply = 1 := by
  constructor
  · obtain ⟨p, hp, ha⟩ := (C62_exact ⟨fun _ => none, fun _ => Hand.new, .Black, 0,
      some (.Normal (Square.at 7 7) (Square.at 7 6) false), fun _ => none⟩).2
      ⟨by simp, fun _ => rfl, by rintro m ⟨⟩; exact ⟨by decide, by decide, by decide⟩, by simp,
        by simp, by simp, by simp⟩
    exact ⟨p, hp, ha.ply⟩
  · intro p hp h0
    obtain ⟨K, hK⟩ := C62_answers p hp
    obtain ⟨txt, S, p', e1, e2, e3, hr, ha⟩ := setUp_parse p hp K hK
    obtain ⟨line, s1, s2⟩ := send_parse (Q := Position.arbitrary_position p) hp
      (by simp [Position.arbitrary_position]) e1 e2
    refine ⟨line, Position.arbitrary_position p', s1, ?_, ?_⟩
    · unfold Position.receive
      rw [s2]
      simp only [e3, Res.bind_ok]
      rfl
    · have := ha.ply
      rw [if_pos (by rw [← hK.ply]; exact h0)] at this
      exact this

/-- Non-vacuity: the starting position meets the conditions of `C66_exact`, and this is the line
for a game with one move. -/
example : ApiReach sp0 ∧ sp0.get_last_move = .ok none ∧ (∀ c (s : Square), s.Valid →
      (sp0.king_position c = .ok (some s) ↔ sp0.piece_at s = .ok (some (Piece.mk' .King c)))) ∧
    ∃ Q, Position.From sp0 [.Normal (Square.at 7 7) (Square.at 7 6) false] Q ∧
      Q.send = .ok (ascii ("position sfen lnsgkgsnl/1r5b1/ppppppppp/9/9/9/PPPPPPPPP/1B5R1/LNSGKGSNL" ++
        " b - 1 moves 7g7f")) := by
  have h0 : sp0.last_move.toOption = none := by decide +kernel
  refine ⟨.startpos startpos_ok, ?_, ?_, ?_⟩
  · rcases get_last_ok sp0_ok with ⟨_, h⟩ | ⟨c, m, h, _⟩
    · exact h
    · rw [h0] at h; cases h
  · intro c s hs
    rw [king_position_ok, piece_at_ok _ hs]
    have key : ∀ c : Color, ∀ i < 81, ((sp0.kingOf c).toOption = some (Square.ofIdx i) ↔
        sp0.cell i = some (Piece.mk' .King c)) := by decide +kernel
    have := key c s.idx0 (Square.idx0_lt hs)
    rw [Square.ofIdx_idx0 hs] at this
    simpa using this
  · have hm : (Move.Normal (Square.at 7 7) (Square.at 7 6) false).Valid := by decide
    rcases make_move_ok sp0_ok hm with ⟨_, q, e, _⟩ | ⟨h, _⟩
    · have e' : (Position.arbitrary_position sp0).make_move
          (.Normal (Square.at 7 7) (Square.at 7 6) false) =
          .ok (⟨sp0, q, [.Normal (Square.at 7 7) (Square.at 7 6) false]⟩, some ()) := by
        rw [position_make_move]; simp only [Position.arbitrary_position]; rw [e]; rfl
      refine ⟨_, Position.From.make_move (v := some ()) .start hm e', ?_⟩
      have h1 : ∀ d : Build, @to_usi_owned ⟨d⟩
        (@Move.to_usi ⟨d⟩ _ _ (Move.Normal (Square.at 7 7) (Square.at 7 6) false)) =
          .ok (ascii "7g7f") := by decide +kernel
      have h1 := h1 P.build
      unfold Position.send
      simp only [Position.initial_position, Position.get_moves, List.map_cons, List.map_nil]
      have h1' : to_usi_owned (Move.Normal (Square.at 7 7) (Square.at 7 6) false).to_usi =
          .ok (ascii "7g7f") := h1
      rw [sp0_sfen, h1']
      simp only [eachOk, Res.bind_ok, Res.pure_eq, Res.ok.injEq]
      decide +kernel
    · refine absurd ?_ h
      have h1 : sp0.cell (Square.at 7 7).idx0 = some (Piece.mk' .Pawn .Black) ∧
        sp0.cell (Square.at 7 6).idx0 = none ∧ sp0.side = .Black := by decide +kernel
      exact ⟨.Pawn, by rw [h1.2.2]; exact h1.1, .inl h1.2.1, by simp⟩

end ShogiCore
