import Verif.Lemmas.SfenBound
import Verif.Props.Game
import Verif.Props.Position

/- C36-C39: SFEN text and sinks. -/

set_option linter.unusedSectionVars false

namespace ShogiCore
open PartialPosition

variable [P : Profile]

/-! ### C36 -/

/-- C36: the SFEN text of every position parses, and the parse shows the board, the side to
move, both hands and the ply. -/
theorem C36_lossless (p : PartialPosition) (h : ApiReach p) :
    ∃ txt S, p.to_sfen_owned = .ok txt ∧ parseSfen txt = some S ∧
      (∀ f r, 1 ≤ f ∧ f ≤ 9 → 1 ≤ r ∧ r ≤ 9 →
        p.piece_at (Square.at f r) = .ok (S.cell f r).piece) ∧
      S.side = p.side_to_move ∧
      (∀ k c, k.InHand → ∃ n, p.hand (Piece.mk' k c) = .ok (some n) ∧
        itemCount S.hands k c = n.toNat) ∧
      S.ply = p.get_ply.toNat := by
  have ok := reach_ok h
  obtain ⟨items, h1, h2⟩ := parse_sfen p (p.handOf .Black) (p.handOf .White)
  refine ⟨_, _, to_sfen_owned_ok ok, h2, ?_, rfl, ?_, rfl⟩
  · intro f r hf hr
    obtain ⟨hv, hi⟩ := at_idx hf hr
    rw [piece_at_ok p hv, hi]
    have e : Sfen.cell ⟨ranksOf p, p.side, items, p.ply.toNat⟩ f r =
        toCell (p.cell (9 * (f - 1) + (r - 1))) := by
      unfold Sfen.cell ranksOf
      have e1 : ([1, 2, 3, 4, 5, 6, 7, 8, 9].map fun r => (p.rankCells r).map toCell)[r - 1]? =
          some ((p.rankCells r).map toCell) := by
        rw [List.getElem?_map]
        have : ∀ r < 9, [1, 2, 3, 4, 5, 6, 7, 8, 9][r]? = some (r + 1) := by decide
        rw [this (r - 1) (by omega), show r - 1 + 1 = r by omega]; rfl
      simp only [e1]
      rw [rankCells_eq p hr, List.map_map, List.getElem?_map]
      have : ∀ f < 10, 1 ≤ f → [9, 8, 7, 6, 5, 4, 3, 2, 1][9 - f]? = some f := by decide
      rw [this f (by omega) (by omega)]; rfl
    rw [e]
    rcases ok.cases (9 * (f - 1) + (r - 1)) with e | ⟨k, c, e⟩
    · rw [e]; rfl
    · rw [e]; simp [toCell, Cell.piece]
  · intro k c hk
    obtain ⟨items', h3, h4⟩ := parseHands_counts (p.handOf .Black) (p.handOf .White)
    rw [h1] at h3; cases h3
    obtain ⟨h5, h6⟩ := h4 k hk
    refine ⟨((p.handOf c).cell k hk), ?_, ?_⟩
    · rw [hand_ok, Hand.count_ok, dif_pos hk]
    · cases c
      · exact h5
      · exact h6

/-- C36: positions with the same SFEN text show the same board, side, hands and ply. -/
theorem C36_injective (p q : PartialPosition) (hp : ApiReach p) (hq : ApiReach q)
    (e : p.to_sfen_owned = q.to_sfen_owned) :
    (∀ s : Square, s.Valid → p.piece_at s = q.piece_at s) ∧ p.side_to_move = q.side_to_move ∧
    (∀ c, p.hand_of_a_player c = q.hand_of_a_player c) ∧ p.get_ply = q.get_ply := by
  obtain ⟨t, S, h1, h2, h3, h4, h5, h6⟩ := C36_lossless p hp
  obtain ⟨t', S', g1, g2, g3, g4, g5, g6⟩ := C36_lossless q hq
  rw [h1, g1] at e; cases e
  rw [h2] at g2; cases g2
  refine ⟨?_, h4.symm.trans g4, ?_, BitVec.eq_of_toNat_eq (h6.symm.trans g6)⟩
  · intro s hs
    obtain ⟨f, r, hf, hr, rfl⟩ : ∃ f r, (1 ≤ f ∧ f ≤ 9) ∧ (1 ≤ r ∧ r ≤ 9) ∧ s = Square.at f r := by
      have key : ∀ i < 81, Square.ofIdx i = Square.at (i / 9 + 1) (i % 9 + 1) := by decide +kernel
      have hi := Square.idx0_lt hs
      refine ⟨s.idx0 / 9 + 1, s.idx0 % 9 + 1, by omega, by omega, ?_⟩
      rw [← key _ hi, Square.ofIdx_idx0 hs]
    rw [h3 f r hf hr, g3 f r hf hr]
  · intro c
    rw [hand_of_a_player_ok, hand_of_a_player_ok]
    congr 1
    refine Hand.ext_cells ?_ (((reach_ok hp).hand c).trans ((reach_ok hq).hand c).symm)
    intro k hk
    obtain ⟨n, e1, e2⟩ := h5 k c hk
    obtain ⟨n', e3, e4⟩ := g5 k c hk
    rw [hand_ok, Hand.count_ok, dif_pos hk] at e1 e3
    cases e1; cases e3
    exact BitVec.eq_of_toNat_eq (e2.symm.trans e4)

/-- Every board, pair of hands, side and non-zero ply is a position: C36 is not about a few
positions only. -/
theorem C36_all_positions (f : Square → Option Piece) (hf : ∀ s x, f s = some x → x.Valid)
    (g : Color → Hand) (hg : ∀ c, (g c).Valid) (side : Color) (ply : U16) (hply : ply ≠ 0) :
    ∃ p, ApiReach p ∧ (∀ s : Square, s.Valid → p.piece_at s = .ok (f s)) ∧
      (∀ c, p.hand_of_a_player c = .ok (g c)) ∧ p.side_to_move = side ∧ p.get_ply = ply := by
  have fill : ∀ n ≤ 81, ∃ p, ApiReach p ∧ ∀ i < n, p.cell i = f (Square.ofIdx i) := by
    intro n
    induction n with
    | zero => intro _; exact ⟨_, .empty, by simp⟩
    | succ n ih =>
      intro hn
      obtain ⟨p, hp, h⟩ := ih (by omega)
      have hv := Square.ofIdx_valid (i := n) (by omega)
      obtain ⟨q, e, hq⟩ := piece_set_ok (reach_ok hp) hv (hf _)
      refine ⟨q, .step hp (.piece_set hv (hf _) e), fun i hi => ?_⟩
      rw [hq.cell i (by omega), Square.idx0_ofIdx (by omega)]
      split
      · rename_i h; rw [h]
      · exact h i (by omega)
  obtain ⟨p, hp, h⟩ := fill 81 (Nat.le_refl _)
  have r1 := ApiReach.step hp (.hand (hg .Black) (hand_assign_ok p .Black (g .Black)))
  have r2 := ApiReach.step r1 (.hand (hg .White) (hand_assign_ok _ .White (g .White)))
  have r3 := ApiReach.step r2 (.side (c := side))
  have r4 := ApiReach.step r3 (.ply (n := ply))
  refine ⟨_, r4, ?_, ?_, ?_, ?_⟩
  · intro s hs
    have hi := Square.idx0_lt hs
    unfold ply_set
    rw [if_neg hply]
    rw [piece_at_ok _ hs]
    have := h _ hi
    rw [Square.ofIdx_idx0 hs] at this
    rw [← this]; rfl
  · intro c
    unfold ply_set
    rw [if_neg hply, hand_of_a_player_ok]
    have e1 := handOf_setHand (p.setHand .Black (g .Black)) .White c (g .White)
    rw [handOf_setHand p .Black c (g .Black)] at e1
    refine congrArg Res.ok (Eq.trans e1 ?_)
    cases c <;> rfl
  · unfold ply_set
    rw [if_neg hply]; rfl
  · unfold ply_set
    rw [if_neg hply]; rfl

/-- Non-vacuity: the SFEN of the starting position. -/
theorem sp0_sfen : sp0.to_sfen_owned =
    .ok (ascii "lnsgkgsnl/1r5b1/ppppppppp/9/9/9/PPPPPPPPP/1B5R1/LNSGKGSNL b - 1") := by
  rw [to_sfen_owned_ok sp0_ok, sfen_text]
  have e1 : sp0.boardChunks = [1, 2, 3, 4, 5, 6, 7, 8, 9].flatMap fun r =>
      rankChunks 0 ([9, 8, 7, 6, 5, 4, 3, 2, 1].map fun f => sp0.cell (9 * (f - 1) + (r - 1))) ++
        (if r < 9 then [ascii "/"] else []) := by
    unfold boardChunks
    simp (config := { decide := true }) only [List.flatMap_cons, List.flatMap_nil,
      rankCells_eq sp0]
  rw [e1]
  decide +kernel

/-! ### C38 -/

/-- C38: `to_sfen_c` writes the SFEN bytes and a NUL at the pointer, changes no other byte,
and is UB exactly when one of those bytes may not be accessed; no byte of the text is NUL. -/
theorem C38_memory (p : PartialPosition) (h : ApiReach p) (m : Mem) (ptr : Nat) :
    ∃ txt, p.to_sfen_owned = .ok txt ∧ (∀ b ∈ txt, b ≠ 0) ∧
      ((∀ i ≤ txt.length, m (ptr + i) ≠ none) →
        ∃ m', p.to_sfen_c m ptr = .ok m' ∧
          (∀ i (hi : i < txt.length), m' (ptr + i) = some txt[i]) ∧
          m' (ptr + txt.length) = some 0 ∧
          ∀ a, (a < ptr ∨ ptr + txt.length < a) → m' a = m a) ∧
      ((∃ i ≤ txt.length, m (ptr + i) = none) → p.to_sfen_c m ptr = .ub) := by
  have ok := reach_ok h
  refine ⟨_, to_sfen_owned_ok ok, ?_, ?_, ?_⟩
  · intro b hb e
    subst e
    rw [sfen_text] at hb
    simp only [List.mem_append, List.mem_cons] at hb
    have n0 : rankByte 0 = false := by decide
    rcases hb with hb | hb | hb | hb | hb | hb | hb
    · unfold boardChunks at hb
      rw [List.mem_flatten] at hb
      obtain ⟨c, hc, hb⟩ := hb
      rw [List.mem_flatMap] at hc
      obtain ⟨r, _, hc⟩ := hc
      rw [List.mem_append] at hc
      rcases hc with hc | hc
      · have := rank_bytes (p.rankCells r) 0 0 (List.mem_flatten.2 ⟨c, hc, hb⟩)
        rw [n0] at this; cases this
      · split at hc
        · simp only [List.mem_singleton] at hc; subst hc; revert hb; decide
        · simp at hc
    · revert hb; decide
    · revert hb; cases p.side <;> decide
    · revert hb; decide
    · rcases handText_bytes _ _ _ hb with e | e
      · revert e; decide
      · rw [n0] at e; cases e
    · revert hb; decide
    · have := decimal_digits _ _ hb; revert this; decide
  · intro hm
    rcases to_sfen_c_ok ok m ptr with ⟨_, e⟩ | ⟨⟨k, hk, h1⟩, _⟩
    · refine ⟨_, e, ?_, ?_, ?_⟩
      · intro i hi
        rw [overlay_in _ _ _ _ (by rw [List.length_append, List.length_singleton]; omega)]
        rw [List.getElem_append_left hi]
      · rw [overlay_in _ _ _ _ (by simp)]
        simp
      · intro a ha
        exact overlay_out _ _ _ _ (by rw [List.length_append, List.length_singleton]; omega)
    · exact absurd h1 (hm k hk)
  · rintro ⟨i, hi, h1⟩
    rcases to_sfen_c_ok ok m ptr with ⟨h2, _⟩ | ⟨_, e⟩
    · exact absurd h1 (h2 i hi)
    · exact e

/-- C38 for `Position`: its `to_sfen_c` and `to_sfen_owned` are those of the inner position. -/
theorem C38_position (Q : Position) (m : Mem) (ptr : Nat) :
    Q.to_sfen_c m ptr = Q.get_inner.to_sfen_c m ptr ∧
    Q.to_sfen_owned = Q.get_inner.to_sfen_owned := ⟨rfl, rfl⟩

/-- Memory in which exactly the `n` bytes at `ptr` are accessible. -/
def bufferMem (ptr n : Nat) : Mem := fun a => if ptr ≤ a ∧ a < ptr + n then some 255 else none

/-- Non-vacuity: a NUL-terminated copy in a 139-byte buffer at address 1000. -/
example : ∃ m', sp0.to_sfen_c (bufferMem 1000 139) 1000 = .ok m' ∧ m' 1000 = some (asciiByte 'l') ∧
    m' 1138 = some 255 := by
  have hr : ApiReach sp0 := .startpos startpos_ok
  have hlen := sfen_le_supply sp0_ok total_sp0
  rcases to_sfen_c_ok sp0_ok (bufferMem 1000 139) 1000 with ⟨_, e⟩ | ⟨⟨k, hk, h1⟩, _⟩
  · refine ⟨_, e, ?_, ?_⟩
    · have hr1 : sp0.rankCells 1 = [9, 8, 7, 6, 5, 4, 3, 2, 1].map
          fun f => sp0.cell (9 * (f - 1) + (1 - 1)) := rankCells_eq sp0 (by omega)
      have : ∃ rest, (sp0.sfenChunks (sp0.handOf .Black) (sp0.handOf .White)).flatten ++ [0] =
          asciiByte 'l' :: rest := by
        rw [sfen_text]
        unfold boardChunks
        rw [List.flatMap_cons, hr1]
        have : ∃ rest, rankChunks 0 ([9, 8, 7, 6, 5, 4, 3, 2, 1].map
          fun f => sp0.cell (9 * (f - 1) + (1 - 1))) = [asciiByte 'l'] :: rest := by
          refine ⟨(rankChunks 0 ([9, 8, 7, 6, 5, 4, 3, 2, 1].map
            fun f => sp0.cell (9 * (f - 1) + (1 - 1)))).tail, ?_⟩
          decide +kernel
        obtain ⟨rest, e⟩ := this
        rw [e]
        exact ⟨_, rfl⟩
      obtain ⟨rest, e⟩ := this
      rw [e]
      exact overlay_in _ 1000 _ 0 (by simp)
    · rw [overlay_out _ _ _ _ (by rw [List.length_append, List.length_singleton]; omega)]
      decide
  · unfold bufferMem at h1
    rw [if_pos (by omega)] at h1
    cases h1

/-! ### C37 -/

/-- C37: for game positions the documented 139-byte buffer suffices (137 bytes do): the call
succeeds if just these bytes are accessible, and changes no byte outside them. -/
theorem C37_games (q : PartialPosition) (h : GameReach q) (m : Mem) (ptr n : Nat) (hn : 137 ≤ n)
    (hm : ∀ i < n, m (ptr + i) ≠ none) :
    ∃ m', q.to_sfen_c m ptr = .ok m' ∧ ∀ a, (a < ptr ∨ ptr + 137 ≤ a) → m' a = m a := by
  have ok := reach_ok (game_reach h)
  have ht : ∀ k, q.total k = pieceSupply k := by
    intro k
    have := C30_conservation q h k
    rw [onBoard_eq, inHand_eq, inHand_eq] at this
    exact this
  have hlen := sfen_le_supply ok ht
  rcases to_sfen_c_ok ok m ptr with ⟨_, e⟩ | ⟨⟨k, hk, h1⟩, _⟩
  · exact ⟨_, e, fun a ha => overlay_out _ _ _ _ (by rw [List.length_append, List.length_singleton]; omega)⟩
  · exact absurd h1 (hm k (by omega))

/-- C37: for arbitrary positions 236 bytes always suffice. -/
theorem C37_general (p : PartialPosition) (h : ApiReach p) (m : Mem) (ptr n : Nat) (hn : 236 ≤ n)
    (hm : ∀ i < n, m (ptr + i) ≠ none) :
    ∃ m', p.to_sfen_c m ptr = .ok m' ∧ ∀ a, (a < ptr ∨ ptr + 236 ≤ a) → m' a = m a := by
  have ok := reach_ok h
  have hlen := sfen_le p (p.handOf .Black) (p.handOf .White)
  rcases to_sfen_c_ok ok m ptr with ⟨_, e⟩ | ⟨⟨k, hk, h1⟩, _⟩
  · exact ⟨_, e, fun a ha => overlay_out _ _ _ _ (by rw [List.length_append, List.length_singleton]; omega)⟩
  · exact absurd h1 (hm k (by omega))

/-- C37, the documented bound for arbitrary positions is false: a position obtainable through
the API (81 promoted pawns, 255 of everything in both hands, ply 65535) needs all 236 bytes;
with 235 accessible bytes, and in particular with the documented 139, the call is UB. -/
theorem C37_refuted : ∃ p, ApiReach p ∧ (∃ txt, p.to_sfen_owned = .ok txt ∧ txt.length + 1 = 236) ∧
    ∀ n ≤ 235, ∀ ptr, p.to_sfen_c (bufferMem ptr n) ptr = .ub := by
  obtain ⟨p, hp, hb, hh, hs, hply⟩ := C36_all_positions (fun _ => some (Piece.mk' .ProPawn .Black))
    (by intro s x e; cases e; decide) (fun _ => ⟨#v[255, 255, 255, 255, 255, 255, 255, 0]⟩)
    (by intro c; decide) .Black 65535 (by decide)
  have ok := reach_ok hp
  have hand : ∀ c, p.handOf c = ⟨#v[255, 255, 255, 255, 255, 255, 255, 0]⟩ := by
    intro c
    have := hh c
    rw [hand_of_a_player_ok] at this
    exact Res.ok.inj this
  have cells : ∀ r, 1 ≤ r ∧ r ≤ 9 →
      p.rankCells r = List.replicate 9 (some (Piece.mk' .ProPawn .Black)) := by
    intro r hr
    unfold PartialPosition.rankCells
    refine (List.map_congr_left (g := fun _ => some (Piece.mk' .ProPawn .Black)) fun f hf => ?_).trans rfl
    have hf' : 1 ≤ f ∧ f ≤ 9 := by simp at hf; omega
    rw [hb _ (at_idx hf' hr).1]
  have hbl : p.boardChunks.flatten.length = 170 := by
    unfold boardChunks
    simp only [List.flatMap_cons, List.flatMap_nil]
    rw [cells 1 (by omega), cells 2 (by omega), cells 3 (by omega), cells 4 (by omega),
      cells 5 (by omega), cells 6 (by omega), cells 7 (by omega), cells 8 (by omega),
      cells 9 (by omega)]
    decide +kernel
  have hhl : (handsText (p.handOf .Black) (p.handOf .White)).length = 56 := by
    rw [hand, hand]; decide +kernel
  have hpl : (decimal p.ply.toNat).length = 5 := by
    have : p.ply = 65535 := hply
    rw [this]; decide +kernel
  have hl : (p.sfenChunks (p.handOf .Black) (p.handOf .White)).flatten.length = 235 := by
    rw [sfen_length, hbl, hhl, hpl]
  refine ⟨p, hp, ⟨_, to_sfen_owned_ok ok, by rw [hl]⟩, ?_⟩
  intro n hn ptr
  rcases to_sfen_c_ok ok (bufferMem ptr n) ptr with ⟨h1, _⟩ | ⟨_, e⟩
  · exact absurd (by unfold bufferMem; rw [if_neg (by omega)]) (h1 235 (by omega))
  · exact e

/-- Non-vacuity of the 139-byte claim: the starting position. -/
example : ∃ m', sp0.to_sfen_c (bufferMem 5 139) 5 = .ok m' := by
  obtain ⟨m', e, _⟩ := C37_games sp0 ⟨sp0, [], startpos_ok, .start⟩ (bufferMem 5 139) 5 139 (by omega)
    (by intro i hi; unfold bufferMem; rw [if_pos (by omega)]; simp)
  exact ⟨m', e⟩

/-! ### C39 -/

/-- The calls a formatter made: the chunks and the sink's answers, in order, taking the sink
from `w` to `w'`. -/
inductive Calls {W : Type} [Write W] : W → List (List U8 × Bool) → W → Prop
  | nil {w} : Calls w [] w
  | cons {w c b w' t w''} : Write.write_str w c = .ok (w', b) → Calls w' t w'' →
      Calls w ((c, b) :: t) w''

/-- A formatter writes exactly the chunks `cs`, whatever the sink: it makes the calls in order
until the first one that fails, returns `Err` iff one failed, and otherwise has made them
all. (A sink whose `write_str` itself panics or hits UB makes the formatter do so.) -/
def WritesChunks (f : (W : Type) → [Write W] → FmtM W Unit) (cs : List (List U8)) : Prop :=
  ∀ (W : Type) [Write W] (w : W), (∀ (v : W) (c : List U8), ∃ v' b, Write.write_str v c = .ok (v', b)) →
    ∃ w' r t, f W w = .ok (w', r) ∧ Calls w t w' ∧ t.map (·.1) <+: cs ∧
      (r = none ↔ ∃ e ∈ t, e.2 = false) ∧
      (∀ e ∈ t.dropLast, e.2 = true) ∧ (r = some () → t.map (·.1) = cs)

omit P in
theorem writesChunks_wr (cs : List (List U8)) : WritesChunks (fun _ _ => wr cs) cs := by
  intro W _ w hw
  unfold wr
  induction cs generalizing w with
  | nil => exact ⟨w, some (), [], rfl, .nil, by simp, by simp, by simp, by simp⟩
  | cons c cs ih =>
    obtain ⟨v, b, e⟩ := hw w c
    cases b with
    | false =>
      refine ⟨v, none, [(c, false)], ?_, .cons e .nil, ?_, by simp, by simp, by simp⟩
      · simp only [writeAll, e]
      · simp
    | true =>
      obtain ⟨w', r, t, h1, h2, h3, h4, h5, h6⟩ := ih v
      refine ⟨w', r, (c, true) :: t, ?_, .cons e h2, ?_, ?_, ?_, ?_⟩
      · simp only [writeAll, e, h1]
      · simpa using h3
      · simpa using h4
      · intro x hx
        cases t with
        | nil => simp at hx
        | cons y t =>
          rw [List.dropLast_cons_cons, List.mem_cons] at hx
          rcases hx with rfl | hx
          · rfl
          · exact h5 x hx
      · intro hr; simpa using h6 hr

omit P in
theorem writesChunks_of {f : (W : Type) → [Write W] → FmtM W Unit} {cs : List (List U8)}
    (h : ∀ (W : Type) [Write W], f W = wr cs) : WritesChunks f cs := by
  have : @f = fun W (_ : Write W) => wr cs := by funext W _; exact h W
  rw [this]; exact writesChunks_wr cs

/-- C39: squares. -/
theorem C39_square (s : Square) (h : s.Valid) : ∃ cs, WritesChunks (fun _ _ => s.to_usi) cs ∧
    to_usi_owned s.to_usi = .ok cs.flatten := by
  refine ⟨_, ?_, to_usi_owned_wr (square_to_usi h)⟩
  exact writesChunks_of fun W _ => square_to_usi h

/-- C39: kinds. -/
theorem C39_kind (k : PieceKind) : ∃ cs, WritesChunks (fun _ _ => k.to_usi) cs ∧
    to_usi_owned k.to_usi = .ok cs.flatten := by
  refine ⟨_, ?_, to_usi_owned_wr (kind_to_usi k)⟩
  exact writesChunks_of fun W _ => kind_to_usi k

/-- C39: pieces. -/
theorem C39_piece (p : Piece) (h : p.Valid) : ∃ cs, WritesChunks (fun _ _ => p.to_usi) cs ∧
    to_usi_owned p.to_usi = .ok cs.flatten := by
  obtain ⟨k, c, rfl⟩ := Piece.exists_mk' h
  refine ⟨_, ?_, to_usi_owned_wr (piece_to_usi k c)⟩
  exact writesChunks_of fun W _ => piece_to_usi k c

/-- C39: colours. -/
theorem C39_color (c : Color) : ∃ cs, WritesChunks (fun _ _ => c.to_usi) cs ∧
    to_usi_owned c.to_usi = .ok cs.flatten := by
  refine ⟨_, ?_, to_usi_owned_wr (color_to_usi c)⟩
  exact writesChunks_of fun W _ => color_to_usi c

/-- C39: pairs of hands. -/
theorem C39_hands (hs : Vector Hand 2) : ∃ cs, WritesChunks (fun _ _ => Hand.to_usi2 hs) cs ∧
    to_usi_owned (Hand.to_usi2 hs) = .ok cs.flatten := by
  refine ⟨_, ?_, to_usi_owned_wr (hand_to_usi hs)⟩
  exact writesChunks_of fun W _ => hand_to_usi hs

/-- C39: moves. -/
theorem C39_move (m : Move) (h : m.Valid) : ∃ cs, WritesChunks (fun _ _ => m.to_usi) cs ∧
    to_usi_owned m.to_usi = .ok cs.flatten := by
  refine ⟨_, ?_, to_usi_owned_wr (move_to_usi h)⟩
  exact writesChunks_of fun W _ => move_to_usi h

/-- C39: compact moves. -/
theorem C39_compact_move (c : CompactMove) (h : c.Valid) :
    ∃ cs, WritesChunks (fun _ _ => c.to_usi) cs ∧ to_usi_owned c.to_usi = .ok cs.flatten := by
  obtain ⟨m, hm, henc⟩ := h
  have e : ∀ (W : Type) [Write W], (c.to_usi : FmtM W Unit) = wr (moveChunks m) := by
    intro W _
    unfold CompactMove.to_usi
    rw [CompactMove.toMove_of_encodes hm henc, FmtM.lift_ok, pure_bind, move_to_usi hm]
  refine ⟨_, ?_, to_usi_owned_wr (e _)⟩
  exact writesChunks_of fun W _ => e W

/-- C39: positions. -/
theorem C39_position (p : PartialPosition) (h : ApiReach p) :
    ∃ cs, WritesChunks (fun _ _ => p.to_sfen) cs ∧ p.to_sfen_owned = .ok cs.flatten := by
  refine ⟨_, ?_, to_sfen_owned_ok (reach_ok h)⟩
  exact writesChunks_of fun W _ => to_sfen_ok (reach_ok h)

/-- A sink that accepts `n` more calls, then fails, and counts the calls. -/
structure Limited where
  left : Nat
  calls : Nat

instance : Write Limited where
  write_str w _ := .ok (⟨w.left - 1, w.calls + 1⟩, w.left != 0)

/-- Non-vacuity: writing the square 7g to a sink that accepts one call makes two calls and
fails. -/
example : ((Square.at 7 7).to_usi : FmtM Limited Unit) ⟨1, 0⟩ = .ok (⟨0, 2⟩, none) := by
  rw [square_to_usi (by decide)]; rfl

end ShogiCore
