import Verif.Lemmas.Writer
import Verif.Spec.Parse

/- C40-C41: decimal numbers, piece and hand texts. -/

namespace ShogiCore
variable [P : Profile]

/-! ### C40 -/

omit P in
theorem decimal_ne_nil (n : Nat) : decimal n ≠ [] := by
  rw [decimal]; split <;> simp

omit P in
theorem decimal_digits (n : Nat) : ∀ b ∈ decimal n, isDigit b = true := by
  induction n using Nat.strongRecOn with
  | _ n ih =>
    intro b hb
    rw [decimal] at hb
    split at hb
    · simp only [List.mem_singleton] at hb; subst hb
      simp only [isDigit, BitVec.toNat_ofNat, Bool.and_eq_true, decide_eq_true_eq]; omega
    · rcases List.mem_append.1 hb with h | h
      · exact ih (n / 10) (by omega) b h
      · simp only [List.mem_singleton] at h; subst h
        simp only [isDigit, BitVec.toNat_ofNat, Bool.and_eq_true, decide_eq_true_eq]; omega

omit P in
theorem decimal_value (n : Nat) : digitsValue (decimal n) = n := by
  induction n using Nat.strongRecOn with
  | _ n ih =>
    rw [decimal]
    split
    · simp only [digitsValue, List.foldl_cons, List.foldl_nil, BitVec.toNat_ofNat]; omega
    · have := ih (n / 10) (by omega)
      unfold digitsValue at *
      rw [List.foldl_append, this]
      simp only [List.foldl_cons, List.foldl_nil, BitVec.toNat_ofNat]; omega

omit P in
theorem decimal_head (n : Nat) (h : 1 ≤ n) : ∃ b l, decimal n = b :: l ∧ b.toNat ≠ 48 := by
  induction n using Nat.strongRecOn with
  | _ n ih =>
    rw [decimal]
    split
    · exact ⟨_, _, rfl, by simp only [BitVec.toNat_ofNat]; omega⟩
    · obtain ⟨b, l, e, hb⟩ := ih (n / 10) (by omega) (by omega)
      exact ⟨b, l ++ [_], by rw [e]; rfl, hb⟩

omit P in
theorem parseNumber_decimal (n : Nat) : parseNumber (decimal n) = some n := by
  have hv := decimal_value n
  have hd := decimal_digits n
  by_cases h0 : n = 0
  · subst h0; rw [decimal]; decide
  · obtain ⟨b, l, e, hb⟩ := decimal_head n (by omega)
    rw [e] at hv hd ⊢
    unfold parseNumber
    have : (b :: l).all isDigit = true := List.all_eq_true.2 hd
    simp only [this, Bool.true_and]
    rw [if_pos (by simp [hb]), hv]

/-- C40, `u8`: the text written is a canonical decimal numeral denoting the value. -/
theorem C40_u8 (v : U8) : ∃ txt, to_usi_owned (write_u8 v) = .ok txt ∧
    (∀ b ∈ txt, isDigit b = true) ∧ digitsValue txt = v.toNat ∧
    (∃ b l, txt = b :: l ∧ (b.toNat = 48 → v.toNat = 0 ∧ l = [])) ∧
    parseNumber txt = some v.toNat := by
  refine ⟨_, to_usi_owned_wr (write_u8_ok v), ?_⟩
  rw [flatten_singly]
  refine ⟨decimal_digits _, decimal_value _, ?_, parseNumber_decimal _⟩
  by_cases h0 : v.toNat = 0
  · rw [h0, decimal]; exact ⟨_, _, rfl, fun _ => ⟨rfl, rfl⟩⟩
  · obtain ⟨b, l, e, hb⟩ := decimal_head v.toNat (by omega)
    exact ⟨b, l, e, fun h => absurd h hb⟩

/-- C40, `u16`. -/
theorem C40_u16 (v : U16) : ∃ txt, to_usi_owned (write_u16 v) = .ok txt ∧
    (∀ b ∈ txt, isDigit b = true) ∧ digitsValue txt = v.toNat ∧
    (∃ b l, txt = b :: l ∧ (b.toNat = 48 → v.toNat = 0 ∧ l = [])) ∧
    parseNumber txt = some v.toNat := by
  refine ⟨_, to_usi_owned_wr (write_u16_ok v), ?_⟩
  rw [flatten_singly]
  refine ⟨decimal_digits _, decimal_value _, ?_, parseNumber_decimal _⟩
  by_cases h0 : v.toNat = 0
  · rw [h0, decimal]; exact ⟨_, _, rfl, fun _ => ⟨rfl, rfl⟩⟩
  · obtain ⟨b, l, e, hb⟩ := decimal_head v.toNat (by omega)
    exact ⟨b, l, e, fun h => absurd h hb⟩

/-- Non-vacuity: 65535 and 207. -/
example : to_usi_owned (write_u16 65535) = .ok (ascii "65535") ∧
    to_usi_owned (write_u8 207) = .ok (ascii "207") := by
  rw [to_usi_owned_wr (write_u16_ok _), to_usi_owned_wr (write_u8_ok _)]
  constructor
  · simp [decimal, ascii]
  · simp [decimal, ascii]

/-! ### C41 -/

omit P in
private theorem piece_text_table : ∀ k : PieceKind, ∀ c : Color, ∀ k' : PieceKind, ∀ c' : Color,
    pieceText k c <+: pieceText k' c' → k = k' ∧ c = c' := by decide +kernel

/-- C41: piece texts are distinct and none is a prefix of another, so a concatenation of
piece texts can be split in one way only. -/
theorem C41_piece_prefix_free (p q : Piece) (hp : p.Valid) (hq : q.Valid) (tp tq : List U8)
    (ep : to_usi_owned p.to_usi = .ok tp) (eq : to_usi_owned q.to_usi = .ok tq)
    (h : tp <+: tq) : p = q := by
  obtain ⟨k, c, rfl⟩ := Piece.exists_mk' hp
  obtain ⟨k', c', rfl⟩ := Piece.exists_mk' hq
  rw [to_usi_owned_wr (piece_to_usi k c)] at ep
  rw [to_usi_owned_wr (piece_to_usi k' c')] at eq
  cases ep; cases eq
  simp only [List.flatten_cons, List.flatten_nil, List.append_nil] at h
  obtain ⟨rfl, rfl⟩ := piece_text_table k c k' c' h
  rfl

/-- C41: shape of piece texts — an optional `+`, present iff promoted, and one letter,
upper case iff Black. -/
theorem C41_piece_shape (p : Piece) (hp : p.Valid) (k : PieceKind) (c : Color)
    (e : p.to_parts = .ok (k, c)) :
    ∃ b : U8, to_usi_owned p.to_usi =
        .ok ((if k.unpromote = none then [] else ascii "+") ++ [b]) ∧
      (c = .Black ↔ 65 ≤ b.toNat ∧ b.toNat ≤ 90) ∧ (c = .White ↔ 97 ≤ b.toNat ∧ b.toNat ≤ 122) := by
  obtain ⟨k', c', rfl⟩ := Piece.exists_mk' hp
  rw [Piece.to_parts_mk'] at e; cases e
  rw [to_usi_owned_wr (piece_to_usi k c)]
  have t : ∀ k : PieceKind, ∀ c : Color, ∃ b ∈ pieceText k c,
      [pieceText k c].flatten = (if k.unpromote = none then [] else ascii "+") ++ [b] ∧
      (c = .Black ↔ 65 ≤ b.toNat ∧ b.toNat ≤ 90) ∧
      (c = .White ↔ 97 ≤ b.toNat ∧ b.toNat ≤ 122) := by decide +kernel
  obtain ⟨b, _, h1, h2⟩ := t k c
  exact ⟨b, by rw [h1], h2⟩

/-- C41: the text of a kind is the text of the black piece of that kind. -/
theorem C41_kind (k : PieceKind) : to_usi_owned k.to_usi = to_usi_owned (Piece.mk' k .Black).to_usi := by
  rw [to_usi_owned_wr (kind_to_usi k), to_usi_owned_wr (piece_to_usi k .Black)]; rfl

/-- C41: colours are written `b` and `w`. -/
theorem C41_color : to_usi_owned Color.Black.to_usi = .ok (ascii "b") ∧
    to_usi_owned Color.White.to_usi = .ok (ascii "w") := by
  rw [to_usi_owned_wr (color_to_usi _), to_usi_owned_wr (color_to_usi _)]
  exact ⟨rfl, rfl⟩

/-! Hands. -/

omit P in
theorem parseHandItems_decimal (n : Nat) (rest : List U8) :
    parseHandItems none (decimal n ++ rest) = parseHandItems (some n) rest := by
  induction n using Nat.strongRecOn generalizing rest with
  | _ n ih =>
    rw [decimal]
    split
    · rw [List.cons_append, List.nil_append, parseHandItems]
      have hd : isDigit (BitVec.ofNat 8 (48 + n)) = true := by
        simp only [isDigit, BitVec.toNat_ofNat, Bool.and_eq_true, decide_eq_true_eq]; omega
      rw [if_pos hd]; congr 2
      simp only [Option.getD_none, BitVec.toNat_ofNat]; omega
    · rw [List.append_assoc, ih (n / 10) (by omega), List.cons_append, List.nil_append,
        parseHandItems]
      have hd : isDigit (BitVec.ofNat 8 (48 + n % 10)) = true := by
        simp only [isDigit, BitVec.toNat_ofNat, Bool.and_eq_true, decide_eq_true_eq]; omega
      rw [if_pos hd]; congr 2
      simp only [Option.getD_some, BitVec.toNat_ofNat]; omega

omit P in
private theorem hand_letter_table : ∀ j < 7, ∀ c : Color, ∃ b ∈ pieceText (kindOfCell j) c,
    pieceText (kindOfCell j) c = [b] ∧ isDigit b = false ∧
    parseHandLetter b = some (kindOfCell j, c) := by decide +kernel

/-- The entries of a list of cells. -/
def cellItems (h : Hand) (c : Color) (l : List Nat) : List HandItem :=
  l.filterMap fun j =>
    let n := (h.cells[j]?.getD 0).toNat
    if n = 0 then none else some (n, kindOfCell j, c)

omit P in
private theorem parse_cells (h : Hand) (c : Color) (l : List Nat) (hl : ∀ j ∈ l, j < 7)
    (rest : List U8) :
    parseHandItems none ((l.flatMap fun j =>
      countedText (h.cells[j]?.getD 0).toNat (pieceText (kindOfCell j) c)) ++ rest) =
    (parseHandItems none rest).map (cellItems h c l ++ ·) := by
  induction l with
  | nil => simp [cellItems]
  | cons j l ih =>
    have ih := ih (fun i hi => hl i (by simp [hi]))
    obtain ⟨b, _, e1, e2, e3⟩ := hand_letter_table j (hl j (by simp)) c
    simp only [List.flatMap_cons, List.append_assoc]
    unfold cellItems at *
    rw [List.filterMap_cons]
    generalize (h.cells[j]?.getD 0).toNat = n at *
    unfold countedText at *
    rw [e1]
    by_cases h0 : n = 0
    · subst h0; simpa using ih
    · by_cases h1 : n = 1
      · subst h1
        simp [parseHandItems, e2, e3] at ih ⊢
        rw [ih]; simp [Function.comp_def]
      · have h2 : 2 ≤ n := by omega
        simp only [h2, h0, if_true, if_false, List.append_assoc]
        rw [parseHandItems_decimal]
        simp [parseHandItems, e2, e3] at ih ⊢
        rw [ih]; simp [Function.comp_def]

omit P in
theorem parse_handText (b w : Hand) :
    parseHandItems none (handText b .Black ++ handText w .White) =
      some (cellItems b .Black [6, 5, 4, 3, 2, 1, 0] ++ cellItems w .White [6, 5, 4, 3, 2, 1, 0]) := by
  unfold handText
  rw [parse_cells b .Black _ (by decide)]
  have := parse_cells w .White [6, 5, 4, 3, 2, 1, 0] (by decide) []
  rw [List.append_nil] at this
  rw [this]; simp [parseHandItems]

omit P in
private theorem cellItems_new (c : Color) (l : List Nat) (hl : ∀ j ∈ l, j < 7) :
    cellItems Hand.new c l = [] := by
  unfold cellItems
  rw [List.filterMap_eq_nil_iff]
  intro j hj
  have := hl j hj
  have : (Hand.new.cells[j]?.getD 0).toNat = 0 := by
    rw [Vector.getElem?_eq_getElem (by omega)]; simp [Hand.new]
  simp only [this, if_true]

omit P in
private theorem handText_ne_dash (b w : Hand) : handText b .Black ++ handText w .White ≠ ascii "-" := by
  intro e
  have := parse_handText b w
  rw [e, show parseHandItems none (ascii "-") = none by decide +kernel] at this
  cases this

omit P in
/-- Parser on the hand field. -/
theorem parseHands_handsText (b w : Hand) :
    parseHands (handsText b w) =
      some (cellItems b .Black [6, 5, 4, 3, 2, 1, 0] ++ cellItems w .White [6, 5, 4, 3, 2, 1, 0]) := by
  unfold handsText
  split
  · rename_i h; rw [h.1, h.2, cellItems_new _ _ (by decide), cellItems_new _ _ (by decide)]; rfl
  · unfold parseHands; rw [if_neg (handText_ne_dash b w), parse_handText]

omit P in
theorem filterMap_congr' {α β : Type} {l : List α} {f g : α → Option β}
    (h : ∀ a ∈ l, f a = g a) : l.filterMap f = l.filterMap g := by
  induction l with
  | nil => rfl
  | cons a l ih =>
    rw [List.filterMap_cons, List.filterMap_cons, h a (by simp), ih (fun b hb => h b (by simp [hb]))]

/-- C41: the independent parser reads from the text exactly the non-zero counts of both
hands, Black's first, each in the order R B G S N L P. -/
theorem C41_hand_parse (hs : Vector Hand 2) :
    ∃ txt items, to_usi_owned (Hand.to_usi2 hs) = .ok txt ∧ parseHands txt = some items ∧
      items.map (·.2) =
        (handOrder.filter fun k => hs[0].count k ≠ .ok (some 0)).map (·, Color.Black) ++
        (handOrder.filter fun k => hs[1].count k ≠ .ok (some 0)).map (·, Color.White) ∧
      (∀ n k c, (n, k, c) ∈ items → (match c with | .Black => hs[0] | .White => hs[1]).count k =
        .ok (some (BitVec.ofNat 8 n)) ∧ 1 ≤ n ∧ n ≤ 255) := by
  refine ⟨_, _, to_usi_owned_wr (hand_to_usi hs), by rw [flatten_singly, parseHands_handsText],
    ?_, ?_⟩
  · have key : ∀ (h : Hand) (c : Color), (cellItems h c [6, 5, 4, 3, 2, 1, 0]).map (·.2) =
        (handOrder.filter fun k => h.count k ≠ .ok (some 0)).map (·, c) := by
      intro h c
      have e : handOrder = [6, 5, 4, 3, 2, 1, 0].map kindOfCell := by decide
      rw [e, List.filter_map, List.map_map]
      unfold cellItems
      rw [List.map_filterMap, ← List.filterMap_eq_map, List.filterMap_filter]
      apply filterMap_congr'
      intro j hj
      have hj7 : j < 7 := by revert j; decide
      have hin := kindOfCell_inHand j hj7
      simp only [Function.comp, Hand.count_ok, dif_pos hin]
      have ec : h.cell (kindOfCell j) hin = h.cells[j]?.getD 0 := by
        unfold Hand.cell
        rw [Vector.getElem?_eq_getElem (by omega)]
        simp [kindOfCell_idx0 j hj7]
      rw [ec]
      generalize h.cells[j]?.getD 0 = v
      by_cases h0 : v = 0#8
      · subst h0; simp
      · have : v.toNat ≠ 0 := fun e => h0 (BitVec.eq_of_toNat_eq e)
        simp [h0, this]
    rw [List.map_append, key, key]
  · intro n k c hm
    have key : ∀ (h : Hand) (d : Color), (n, k, c) ∈ cellItems h d [6, 5, 4, 3, 2, 1, 0] →
        c = d ∧ h.count k = .ok (some (BitVec.ofNat 8 n)) ∧ 1 ≤ n ∧ n ≤ 255 := by
      intro h d hm
      unfold cellItems at hm
      obtain ⟨j, hj, e⟩ := List.mem_filterMap.1 hm
      simp only at e
      split at e
      · cases e
      · rename_i h0
        have hj7 : j < 7 := by clear e h0 hm; revert j; decide
        simp only [Option.some.injEq, Prod.mk.injEq] at e
        obtain ⟨rfl, rfl, rfl⟩ := e
        have hin := kindOfCell_inHand j hj7
        have hlt := (h.cells[j]?.getD 0).isLt
        refine ⟨rfl, ?_, by omega, by omega⟩
        rw [Hand.count_ok, dif_pos hin]
        have ec : h.cell (kindOfCell j) hin = h.cells[j]?.getD 0 := by
          unfold Hand.cell
          rw [Vector.getElem?_eq_getElem (by omega)]
          simp [kindOfCell_idx0 j hj7]
        rw [ec]; simp
    rcases List.mem_append.1 hm with h | h
    · obtain ⟨rfl, h2⟩ := key _ _ h; exact h2
    · obtain ⟨rfl, h2⟩ := key _ _ h; exact h2

omit P in
private theorem cell_of_items (h : Hand) (c : Color) (k : PieceKind) (hk : k.InHand) :
    itemCount (cellItems h c [6, 5, 4, 3, 2, 1, 0]) k c = (h.cell k hk).toNat ∧
    ∀ d, d ≠ c → itemCount (cellItems h c [6, 5, 4, 3, 2, 1, 0]) k d = 0 := by
  constructor
  · unfold itemCount cellItems
    have e : ∀ (j : Nat) (hj : j < 8), h.cells[j]?.getD 0 = h.cells[j] := by
      intro j hj; rw [Vector.getElem?_eq_getElem hj]; rfl
    have key : ∀ (l : List Nat), (∀ j ∈ l, j < 7) → l.Nodup →
        (((l.filterMap fun j => let n := (h.cells[j]?.getD 0).toNat
          if n = 0 then none else some ((n, kindOfCell j, c) : HandItem)).filter
            fun i => i.2 = (k, c)).map (·.1)).sum =
        if k.idx0 ∈ l then (h.cell k hk).toNat else 0 := by
      intro l hl hnd
      induction l with
      | nil => simp
      | cons j l ih =>
        have hj7 := hl j (by simp)
        have ih := ih (fun i hi => hl i (by simp [hi])) (List.nodup_cons.1 hnd).2
        have hnm := (List.nodup_cons.1 hnd).1
        by_cases hjk : kindOfCell j = k
        · have hjx : k.idx0 = j := by rw [← hjk, kindOfCell_idx0 j hj7]
          have hn : k.idx0 ∉ l := by rw [hjx]; exact hnm
          rw [if_neg hn] at ih
          rw [if_pos (by simp [hjx])]
          have hc : h.cell k hk = h.cells[j]?.getD 0 := by
            unfold Hand.cell; rw [e j (by omega)]; simp [hjx]
          rw [hc, List.filterMap_cons]
          by_cases h0 : (h.cells[j]?.getD 0).toNat = 0
          · simp only [h0, if_true]; exact ih
          · simp only [h0, if_false, hjk, List.filter_cons]
            simp only [decide_true, if_true, List.map_cons, List.sum_cons]
            simp only at ih
            rw [ih]; rfl
        · have hjx : k.idx0 ≠ j := by
            intro e'; apply hjk; apply PieceKind.idx0_inj; rw [kindOfCell_idx0 j hj7, e']
          have : (k.idx0 ∈ j :: l) ↔ k.idx0 ∈ l := by simp [hjx]
          simp only [this]
          rw [← ih, List.filterMap_cons]
          by_cases h0 : (h.cells[j]?.getD 0).toNat = 0
          · simp only [h0, if_true]
          · simp only [h0, if_false, List.filter_cons]
            simp [hjk]
    have := key [6, 5, 4, 3, 2, 1, 0] (by decide) (by decide)
    rw [this, if_pos]
    have h7 := (Hand.inHand_iff k).1 hk
    generalize k.idx0 = x at h7
    revert x; decide
  · intro d hd
    unfold itemCount
    have : (cellItems h c [6, 5, 4, 3, 2, 1, 0]).filter (fun i => i.2 = (k, d)) = [] := by
      rw [List.filter_eq_nil_iff]
      intro i hi
      obtain ⟨j, _, e⟩ := List.mem_filterMap.1 hi
      simp only at e
      split at e
      · cases e
      · cases e; simp; intro _ h; exact hd h.symm
    rw [this]; rfl

omit P in
/-- The parser's totals are the counts. -/
theorem parseHands_counts (b w : Hand) : ∃ items, parseHands (handsText b w) = some items ∧
    ∀ k (hk : k.InHand), itemCount items k .Black = (b.cell k hk).toNat ∧
      itemCount items k .White = (w.cell k hk).toNat := by
  refine ⟨_, parseHands_handsText b w, fun k hk => ?_⟩
  have happ : ∀ (l l' : List HandItem) (d : Color),
      itemCount (l ++ l') k d = itemCount l k d + itemCount l' k d := by
    intro l l' d; unfold itemCount; rw [List.filter_append, List.map_append, List.sum_append]
  rw [happ, happ, (cell_of_items b .Black k hk).1, (cell_of_items w .White k hk).1,
    (cell_of_items b .Black k hk).2 _ (by decide), (cell_of_items w .White k hk).2 _ (by decide)]
  simp

/-- C41: the hand text determines both hands. -/
theorem C41_hand_injective (hs gs : Vector Hand 2) (v0 : hs[0].Valid) (v1 : hs[1].Valid)
    (w0 : gs[0].Valid) (w1 : gs[1].Valid)
    (e : to_usi_owned (Hand.to_usi2 hs) = to_usi_owned (Hand.to_usi2 gs)) : hs = gs := by
  rw [to_usi_owned_wr (hand_to_usi hs), to_usi_owned_wr (hand_to_usi gs)] at e
  simp only [flatten_singly, Res.ok.injEq] at e
  obtain ⟨i1, h1, h2⟩ := parseHands_counts hs[0] hs[1]
  obtain ⟨i2, g1, g2⟩ := parseHands_counts gs[0] gs[1]
  rw [e, g1] at h1; cases h1
  apply Vector.ext
  intro i hi
  have : i = 0 ∨ i = 1 := by omega
  rcases this with rfl | rfl
  · apply Hand.ext_cells
    · intro k hk; apply BitVec.eq_of_toNat_eq; rw [← (h2 k hk).1, (g2 k hk).1]
    · unfold Hand.Valid at v0 w0; rw [v0, w0]
  · apply Hand.ext_cells
    · intro k hk; apply BitVec.eq_of_toNat_eq; rw [← (h2 k hk).2, (g2 k hk).2]
    · unfold Hand.Valid at v1 w1; rw [v1, w1]

/-- C41: the text is `-` exactly when both hands are empty. -/
theorem C41_hand_dash (hs : Vector Hand 2) :
    to_usi_owned (Hand.to_usi2 hs) = .ok (ascii "-") ↔ hs[0] = Hand.new ∧ hs[1] = Hand.new := by
  rw [to_usi_owned_wr (hand_to_usi hs), flatten_singly]
  unfold handsText
  split
  · rename_i h; exact ⟨fun _ => h, fun _ => rfl⟩
  · rename_i h
    refine ⟨fun e => ?_, fun h' => absurd h' h⟩
    exact absurd (Res.ok.inj e) (handText_ne_dash _ _)

/-- Non-vacuity: "rb3p" (the documentation's example). -/
example : to_usi_owned (Hand.to_usi2 #v[Hand.new, ⟨#v[3, 0, 0, 0, 0, 1, 1, 0]⟩]) =
    .ok (ascii "rb3p") := by
  rw [to_usi_owned_wr (hand_to_usi _), flatten_singly]
  unfold handsText
  rw [if_neg (by decide)]
  simp only [handText, List.flatMap_cons, List.flatMap_nil, countedText]
  rw [decimal_lt (n := ((_ : U8)).toNat) (by decide)]
  decide +kernel

end ShogiCore
