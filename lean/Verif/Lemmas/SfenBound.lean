import Verif.Lemmas.Sfen

set_option linter.unusedSectionVars false

namespace ShogiCore
open PartialPosition

variable [P : Profile]

omit P in
theorem sumTo_add (f g : Nat → Nat) (n : Nat) :
    sumTo (fun i => f i + g i) n = sumTo f n + sumTo g n := by
  induction n with
  | zero => rfl
  | succ n ih => simp only [sumTo, ih]; omega

omit P in
theorem sumTo_le {f g : Nat → Nat} {n : Nat} (h : ∀ i < n, f i ≤ g i) : sumTo f n ≤ sumTo g n := by
  induction n with
  | zero => exact Nat.le_refl _
  | succ n ih =>
    have := ih (fun i hi => h i (by omega))
    have := h n (by omega)
    simp only [sumTo]; omega

omit P in
theorem plusTotal_le_81 (p : PartialPosition) : plusTotal p ≤ 81 := by
  have := sumTo_le (f := fun i => plusCount (p.cell i)) (g := fun _ => 1) (n := 81)
    (fun i _ => plusCount_le _)
  exact this

omit P in
theorem plusTotal_le {p : PartialPosition} (ok : p.Ok) :
    plusTotal p ≤ p.boardCount .Pawn + p.boardCount .Lance + p.boardCount .Knight +
      p.boardCount .Silver + p.boardCount .Bishop + p.boardCount .Rook := by
  unfold boardCount plusTotal
  simp only [← sumTo_add]
  apply sumTo_le
  intro i _
  rcases ok.cases i with e | ⟨k, c, e⟩
  · rw [e]; exact Nat.zero_le _
  · rw [e]
    simp only [plusCount, kindOfPiece_mk', colorOfPiece_mk', weight_mk]
    revert k c; intro k c _; cases k <;> cases c <;> decide

omit P in
theorem countedText_length (n : Nat) (j : Nat) (hj : j < 7) (c : Color) :
    (countedText n (pieceText (kindOfCell j) c)).length ≤ n ∧
    (n ≤ 255 → (countedText n (pieceText (kindOfCell j) c)).length ≤ 4) := by
  have h1 : (pieceText (kindOfCell j) c).length = 1 := by
    have : ∀ j < 7, ∀ c, (pieceText (kindOfCell j) c).length = 1 := by decide +kernel
    exact this j hj c
  have hd := decimal_length n
  have hlog : ∀ n, (decimal n).length ≤ 1 ∨ (decimal n).length + 1 ≤ n := by
    intro n
    induction n using Nat.strongRecOn with
    | _ n ih =>
      by_cases h : n < 10
      · left; rw [decimal_lt h]; simp
      · right
        rw [decimal_ge (by omega), List.length_append, List.length_singleton]
        rcases ih (n / 10) (by omega) with h' | h' <;> omega
  unfold countedText
  rw [List.length_append]
  constructor
  · by_cases h0 : n = 0
    · subst h0; simp
    · rw [if_neg h0, h1]
      split
      · rcases hlog n with h | h <;> omega
      · simp; omega
  · intro h
    have : (if n = 0 then [] else pieceText (kindOfCell j) c).length ≤ 1 := by split <;> simp [h1]
    have : (if 2 ≤ n then decimal n else []).length ≤ 3 := by
      split
      · exact hd.2.2.1 (by omega)
      · simp
    omega

omit P in
theorem handText_length (h : Hand) (c : Color) :
    (handText h c).length ≤ handCount h .Pawn + handCount h .Lance + handCount h .Knight +
      handCount h .Silver + handCount h .Gold + handCount h .Bishop + handCount h .Rook ∧
    (handText h c).length ≤ 28 := by
  have e : ∀ (j : Nat) (hj : j < 7), (h.cells[j]?.getD 0).toNat = handCount h (kindOfCell j) := by
    intro j hj
    have hk := kindOfCell_inHand j hj
    unfold handCount
    rw [dif_pos hk, Vector.getElem?_eq_getElem (by omega), Option.getD_some]
    unfold Hand.cell
    congr 2
    exact (kindOfCell_idx0 j hj).symm
  have b : ∀ j, j < 7 → (countedText (h.cells[j]?.getD 0).toNat (pieceText (kindOfCell j) c)).length ≤
      handCount h (kindOfCell j) ∧
      (countedText (h.cells[j]?.getD 0).toNat (pieceText (kindOfCell j) c)).length ≤ 4 := by
    intro j hj
    have := countedText_length (h.cells[j]?.getD 0).toNat j hj c
    rw [e j hj] at this ⊢
    refine ⟨this.1, this.2 ?_⟩
    rw [← e j hj]; have := (h.cells[j]?.getD 0).isLt; omega
  have b0 := b 0 (by omega); have b1 := b 1 (by omega); have b2 := b 2 (by omega)
  have b3 := b 3 (by omega); have b4 := b 4 (by omega); have b5 := b 5 (by omega)
  have b6 := b 6 (by omega)
  unfold handText
  simp only [List.flatMap_cons, List.flatMap_nil, List.length_append, List.length_nil]
  simp only [show kindOfCell 0 = .Pawn from rfl, show kindOfCell 1 = .Lance from rfl,
    show kindOfCell 2 = .Knight from rfl, show kindOfCell 3 = .Silver from rfl,
    show kindOfCell 4 = .Gold from rfl, show kindOfCell 5 = .Bishop from rfl,
    show kindOfCell 6 = .Rook from rfl] at *
  omega

omit P in
theorem handsText_length (b w : Hand) :
    (handsText b w).length ≤ 1 ∨
      (handsText b w).length = (handText b .Black).length + (handText w .White).length := by
  unfold handsText
  split
  · left; decide
  · right; rw [List.length_append]

theorem sfen_length (p : PartialPosition) (b w : Hand) :
    (p.sfenChunks b w).flatten.length =
      p.boardChunks.flatten.length + (handsText b w).length + (decimal p.ply.toNat).length + 4 := by
  rw [sfen_text]
  simp only [List.length_append, List.length_cons]
  have : (colorText p.side).length = 1 := by cases p.side <;> rfl
  omega

theorem ply_length (p : PartialPosition) : (decimal p.ply.toNat).length ≤ 5 := by
  have := p.ply.isLt
  exact (decimal_length _).2.2.2.2 (by omega)

/-- Length of the text of any position. -/
theorem sfen_le (p : PartialPosition) (b w : Hand) : (p.sfenChunks b w).flatten.length ≤ 235 := by
  have h1 := boardChunks_length p
  rw [plusTotal_eq] at h1
  have h2 := plusTotal_le_81 p
  have h3 := (handText_length b .Black).2
  have h4 := (handText_length w .White).2
  have h5 := handsText_length b w
  have h6 := ply_length p
  rw [sfen_length]; omega

/-- Length of the text of a position with a standard set of pieces. -/
theorem sfen_le_supply {p : PartialPosition} (ok : p.Ok) (h : ∀ k, p.total k = pieceSupply k) :
    (p.sfenChunks (p.handOf .Black) (p.handOf .White)).flatten.length ≤ 136 := by
  have h1 := boardChunks_length p
  rw [plusTotal_eq] at h1
  have h2 := plusTotal_le ok
  have h3 := (handText_length (p.handOf .Black) .Black).1
  have h4 := (handText_length (p.handOf .White) .White).1
  have h5 := handsText_length (p.handOf .Black) (p.handOf .White)
  have h6 := ply_length p
  have t1 := h .Pawn; have t2 := h .Lance; have t3 := h .Knight; have t4 := h .Silver
  have t5 := h .Gold; have t6 := h .Bishop; have t7 := h .Rook
  simp only [total, pieceSupply] at t1 t2 t3 t4 t5 t6 t7
  rw [sfen_length]; omega

/-! ### Memory -/

omit P

/-- Memory with some bytes replaced. -/
def overlay (m : Mem) (ptr : Nat) : List U8 → Mem
  | [] => m
  | b :: l => overlay (fun a => if a = ptr then some b else m a) (ptr + 1) l

theorem overlay_append (m : Mem) (ptr : Nat) (l l' : List U8) :
    overlay m ptr (l ++ l') = overlay (overlay m ptr l) (ptr + l.length) l' := by
  induction l generalizing m ptr with
  | nil => rfl
  | cons b l ih =>
    rw [List.cons_append, overlay, overlay, ih, List.length_cons]; congr 1; omega

theorem overlay_out (m : Mem) (ptr : Nat) (l : List U8) (a : Nat) (h : a < ptr ∨ ptr + l.length ≤ a) :
    overlay m ptr l a = m a := by
  induction l generalizing m ptr with
  | nil => rfl
  | cons b l ih =>
    rw [List.length_cons] at h
    rw [overlay, ih _ _ (by omega)]
    show (if a = ptr then some b else m a) = m a
    rw [if_neg (by omega)]

theorem overlay_in (m : Mem) (ptr : Nat) (l : List U8) (i : Nat) (h : i < l.length) :
    overlay m ptr l (ptr + i) = some l[i] := by
  induction l generalizing m ptr i with
  | nil => simp at h
  | cons b l ih =>
    rw [overlay]
    cases i with
    | zero =>
      rw [overlay_out _ _ _ _ (by omega)]
      show (if ptr + 0 = ptr then some b else m _) = _
      rw [if_pos (by omega)]; rfl
    | succ i =>
      rw [show ptr + (i + 1) = ptr + 1 + i by omega, ih _ _ _ (by simpa using h)]; rfl

theorem overlay_isSome (m : Mem) (ptr : Nat) (l : List U8) (a : Nat)
    (h : ∀ i < l.length, m (ptr + i) ≠ none) : overlay m ptr l a ≠ none ↔ m a ≠ none := by
  by_cases ha : a < ptr ∨ ptr + l.length ≤ a
  · rw [overlay_out _ _ _ _ ha]
  · obtain ⟨i, rfl⟩ : ∃ i, a = ptr + i := ⟨a - ptr, by omega⟩
    have hi : i < l.length := by omega
    rw [overlay_in _ _ _ _ hi]
    exact ⟨fun _ => h i hi, fun _ => by simp⟩

theorem writeBytes_eq (ptr i : Nat) (l : List U8) (m : Mem) :
    ((∀ k < l.length, m (ptr + i + k) ≠ none) ∧
      Bridge.writeBytes ptr i l m = .ok (overlay m (ptr + i) l)) ∨
    ((∃ k < l.length, m (ptr + i + k) = none) ∧ Bridge.writeBytes ptr i l m = .ub) := by
  induction l generalizing i m with
  | nil => left; exact ⟨by simp, rfl⟩
  | cons b l ih =>
    rw [Bridge.writeBytes]
    cases e : m (ptr + i) with
    | none =>
      right
      refine ⟨⟨0, by simp, e⟩, ?_⟩
      simp only [Mem.write, e]; rfl
    | some v =>
      simp only [Mem.write, e, Res.bind_ok]
      have hm : ∀ k, (fun q => if q = ptr + i then some b else m q) (ptr + (i + 1) + k) =
          m (ptr + i + (k + 1)) := by
        intro k
        show (if ptr + (i + 1) + k = ptr + i then some b else m _) = _
        rw [if_neg (by omega)]; congr 1; omega
      rcases ih (i + 1) (fun q => if q = ptr + i then some b else m q) with ⟨h1, h2⟩ | ⟨⟨k, hk, h1⟩, h2⟩
      · left
        refine ⟨?_, ?_⟩
        · intro k hk
          cases k with
          | zero => rw [Nat.add_zero, e]; simp
          | succ k => rw [← hm k]; exact h1 k (by simpa using hk)
        · rw [h2]; rfl
      · right
        exact ⟨⟨k + 1, by simpa using hk, by rw [← hm k]; exact h1⟩, h2⟩

theorem writeAll_bridge (cs : List (List U8)) (m : Mem) (ptr : Nat) :
    ((∀ k < cs.flatten.length, m (ptr + k) ≠ none) ∧
      writeAll cs (⟨m, ptr⟩ : Bridge) =
        .ok (⟨overlay m ptr cs.flatten, ptr + cs.flatten.length⟩, some ())) ∨
    ((∃ k < cs.flatten.length, m (ptr + k) = none) ∧ writeAll cs (⟨m, ptr⟩ : Bridge) = .ub) := by
  induction cs generalizing m ptr with
  | nil => left; exact ⟨by simp, rfl⟩
  | cons c cs ih =>
    have hw : Write.write_str (⟨m, ptr⟩ : Bridge) c =
        (do let mem ← Bridge.writeBytes ptr 0 c m; return (⟨mem, ptr + c.length⟩, true)) := rfl
    rw [writeAll, hw]
    rcases writeBytes_eq ptr 0 c m with ⟨h1, h2⟩ | ⟨⟨k, hk, h1⟩, h2⟩
    · rw [h2]
      simp only [Res.bind_ok, Res.pure_eq, Nat.add_zero] at h1 ⊢
      have hs := fun a => overlay_isSome m ptr c a h1
      rcases ih (overlay m ptr c) (ptr + c.length) with ⟨g1, g2⟩ | ⟨⟨k, hk, g1⟩, g2⟩
      · left
        refine ⟨?_, ?_⟩
        · intro k hk
          by_cases hc : k < c.length
          · exact h1 k hc
          · rw [List.flatten_cons, List.length_append] at hk
            have := (hs _).1 (g1 (k - c.length) (by omega))
            rwa [show ptr + c.length + (k - c.length) = ptr + k by omega] at this
        · rw [g2, List.flatten_cons, overlay_append, List.length_append, Nat.add_assoc]
      · right
        refine ⟨⟨c.length + k, by rw [List.flatten_cons, List.length_append]; omega, ?_⟩, g2⟩
        have := (hs (ptr + c.length + k))
        rw [g1] at this
        rw [← Nat.add_assoc]
        simpa using this
    · right
      refine ⟨⟨k, by rw [List.flatten_cons, List.length_append]; omega, by simpa using h1⟩, ?_⟩
      rw [h2]; rfl

theorem to_sfen_c_ok [P : Profile] {p : PartialPosition} (ok : p.Ok) (m : Mem) (ptr : Nat) :
    let txt := (p.sfenChunks (p.handOf .Black) (p.handOf .White)).flatten
    ((∀ k ≤ txt.length, m (ptr + k) ≠ none) ∧
      p.to_sfen_c m ptr = .ok (overlay m ptr (txt ++ [0]))) ∨
    ((∃ k ≤ txt.length, m (ptr + k) = none) ∧ p.to_sfen_c m ptr = .ub) := by
  intro txt
  have key : p.to_sfen_c m ptr = (match writeAll
      (p.sfenChunks (p.handOf .Black) (p.handOf .White) ++ [[0]]) (⟨m, ptr⟩ : Bridge) with
      | .ok (s, _) => .ok s.mem
      | .panic => .panic
      | .ub => .ub) := by
    unfold PartialPosition.to_sfen_c
    rw [to_sfen_ok ok, write_ascii_byte_ok (by decide)]
    have h := congrFun (wr_bind (W := Bridge) (p.sfenChunks (p.handOf .Black) (p.handOf .White)) [[0]])
      ⟨m, ptr⟩
    unfold wr at h ⊢
    rw [← h]
    show _ = (match FmtM.bind (writeAll (p.sfenChunks (p.handOf .Black) (p.handOf .White)))
      (fun _ => writeAll [[0]]) (⟨m, ptr⟩ : Bridge) with
      | .ok (s, _) => Res.ok s.mem
      | .panic => Res.panic
      | .ub => Res.ub)
    unfold FmtM.bind
    rcases writeAll_bridge (p.sfenChunks (p.handOf .Black) (p.handOf .White)) m ptr with
      ⟨_, e⟩ | ⟨_, e⟩
    · rw [e]
      simp only [Res.bind_ok]
      cases writeAll [[0]] (⟨overlay m ptr (p.sfenChunks (p.handOf .Black) (p.handOf .White)).flatten,
        ptr + (p.sfenChunks (p.handOf .Black) (p.handOf .White)).flatten.length⟩ : Bridge) <;> rfl
    · rw [e]; rfl
  have hfl : (p.sfenChunks (p.handOf .Black) (p.handOf .White) ++ [[0]]).flatten = txt ++ [0] := by
    simp [txt]
  rcases writeAll_bridge (p.sfenChunks (p.handOf .Black) (p.handOf .White) ++ [[0]]) m ptr with
    ⟨h, e⟩ | ⟨⟨k, hk, h⟩, e⟩
  · left
    rw [hfl] at h
    refine ⟨fun k hk => h k (by simp; omega), ?_⟩
    rw [key, e, hfl]
  · right
    rw [hfl] at hk
    refine ⟨⟨k, by simp at hk; omega, h⟩, ?_⟩
    rw [key, e]

end ShogiCore
