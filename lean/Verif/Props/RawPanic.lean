import Verif.Model.RawAll
import Verif.Spec.RawAll
import Verif.Props.RawMoves

/- C95: no call of the C library panics in a release build. -/

set_option linter.unusedSectionVars false

namespace ShogiCore
open PartialPosition

variable [P : Profile]

/-! ### No panics -/

/-- Does not panic. -/
def Res.NP {α : Type} (x : Res α) : Prop := x ≠ .panic

omit P in
theorem Res.NP.ok {α : Type} (a : α) : (Res.ok a).NP := nofun

omit P in
theorem Res.NP.of_eq {α : Type} {x : Res α} {a : α} (h : x = .ok a) : x.NP := by rw [h]; exact .ok a

omit P in
theorem Res.NP.bind {α β : Type} {x : Res α} {f : α → Res β} (h : x.NP) (hf : ∀ a, x = .ok a → (f a).NP) :
    (x >>= f).NP := by
  cases x with
  | ok a => exact hf a rfl
  | panic => exact absurd rfl h
  | ub => exact nofun

omit P in
theorem np_parts (x : Piece) : x.to_parts.NP := by
  have t : ∀ n < 256, Piece.to_parts ⟨BitVec.ofNat 8 n⟩ ≠ .panic := by decide +kernel
  exact at_byte (p := fun _ v => Piece.to_parts ⟨v⟩ ≠ .panic) t x.val

omit P in
theorem np_color (x : Piece) : x.color.NP := (np_parts x).bind fun _ _ => .ok _
omit P in
theorem np_kind (x : Piece) : x.piece_kind.NP := (np_parts x).bind fun _ _ => .ok _

theorem np_promote (x : Piece) : x.promote.NP := by
  refine (np_parts x).bind ?_
  rintro ⟨k, c⟩ _
  show Res.NP (match k.promote with | none => _ | some k => _)
  cases k.promote with
  | none => exact .ok _
  | some k => exact (Res.NP.of_eq (Piece.new_ok k c)).bind fun _ _ => .ok _

theorem np_unpromote (x : Piece) : x.unpromote.NP := by
  refine (np_parts x).bind ?_
  rintro ⟨k, c⟩ _
  show Res.NP (match k.unpromote with | none => _ | some k => _)
  cases k.unpromote with
  | none => exact .ok _
  | some k => exact (Res.NP.of_eq (Piece.new_ok k c)).bind fun _ _ => .ok _

theorem np_set_player (p : PartialPosition) (b : Bitboard) (o : Option Piece) : (p.piece_set_player b o).NP := by
  cases o with
  | none => exact .ok _
  | some x =>
    refine (np_parts x).bind ?_
    rintro ⟨k, c⟩ _
    cases c <;> exact .ok _

theorem np_set_remove (p : PartialPosition) (b : Bitboard) (o : Option Piece) : (p.piece_set_remove b o).NP := by
  cases o with
  | none => exact .ok _
  | some x =>
    refine (np_kind x).bind fun k _ => ?_
    simp only [PieceKind.array_index_ok, Res.bind_ok, toNat_kind, idx_ok k.idx0_lt, idxSet_ok k.idx0_lt]
    exact .ok _

theorem np_set_insert (p : PartialPosition) (s : Square) (b : Bitboard) (o : Option Piece) :
    (p.piece_set_insert s b o).NP := by
  cases o with
  | none => exact .ok _
  | some x =>
    refine (np_kind x).bind fun k _ => ?_
    simp only [PieceKind.array_index_ok, Res.bind_ok, toNat_kind, idx_ok k.idx0_lt, idxSet_ok k.idx0_lt,
      const_BK, const_WK]
    exact .ok _

theorem np_piece_set (p : PartialPosition) {s : Square} (hs : s.Valid) (o : Option Piece) :
    (p.piece_set s o).NP := by
  obtain ⟨h1, h2⟩ := index_sub hs
  have hi := Square.idx0_lt hs
  unfold PartialPosition.piece_set
  simp only [Square.index_ok hs, Res.bind_ok, BitVec.ofNat_eq_ofNat, h1, h2, piece_at_ok p hs,
    setUnchecked_ok hi, show Bitboard.single_inlined s = .ok (Bitboard.one s.idx0) from Bitboard.single_ok hs]
  exact (np_set_player _ _ _).bind fun _ _ => (np_set_remove _ _ _).bind fun _ _ => np_set_insert _ _ _ _

theorem np_hand (p : PartialPosition) (c : Color) : (p.hand_of_a_player c).NP :=
  .of_eq (hand_of_a_player_ok p c)

theorem np_assign (p : PartialPosition) (c : Color) (h : Hand) : (p.hand_of_a_player_mut_assign c h).NP :=
  .of_eq (hand_assign_ok p c h)

theorem np_added (h : Hand) (k : PieceKind) : (h.added k).NP := .of_eq (Hand.added_ok h k)
theorem np_removed (h : Hand) (k : PieceKind) : (h.removed k).NP := .of_eq (Hand.removed_ok h k)

theorem np_capture (p : PartialPosition) (x : Piece) {t : Square} (ht : t.Valid) :
    (p.make_move_capture x t).NP := by
  unfold make_move_capture
  refine (Res.NP.of_eq (piece_at_ok p ht)).bind fun o _ => ?_
  cases o with
  | none => exact .ok _
  | some y =>
    refine (np_color x).bind fun c _ => (np_color y).bind fun d _ => ?_
    split
    · exact .ok _
    · refine (np_color x).bind fun c _ => (np_hand p c).bind fun h _ => (np_kind y).bind fun k _ =>
        (np_added h _).bind fun o _ => ?_
      cases o with
      | none => exact .ok _
      | some v => exact (np_color x).bind fun c _ => (np_assign p c v).bind fun _ _ => .ok _

theorem np_finish (p : PartialPosition) {m m' : Move} (hm : MoveLike m m') : (p.make_move_finish m).NP := by
  obtain ⟨c, _, e, _⟩ := hm.words
  exact (Res.NP.of_eq e).bind fun _ _ => (Res.NP.of_eq (Color.flip_ok _)).bind fun _ _ => .ok _

theorem np_make_move (p : PartialPosition) {m m' : Move} (hm : MoveLike m m') : (p.make_move m).NP := by
  have hm' := hm
  cases hm with
  | @normal s t pr hs ht =>
    simp only [PartialPosition.make_move]
    refine (Res.NP.of_eq (piece_at_ok p hs)).bind fun o _ => ?_
    cases o with
    | none => exact .ok _
    | some x =>
      refine (np_color x).bind fun c _ => ?_
      split
      · exact .ok _
      · refine Res.NP.bind ?_ fun o _ => ?_
        · split
          · exact np_promote x
          · exact .ok _
        · cases o with
          | none => exact .ok _
          | some y =>
            refine (np_capture p x ht).bind ?_
            rintro ⟨q, r⟩ _
            cases r with
            | none => exact .ok _
            | some u => exact (np_piece_set q hs _).bind fun q _ => (np_piece_set q ht _).bind fun q _ => np_finish q hm'
  | @drop x t k c ht e =>
    simp only [PartialPosition.make_move]
    refine (np_color x).bind fun c _ => ?_
    split
    · exact .ok _
    refine (np_unpromote x).bind fun o _ => ?_
    split
    · exact .ok _
    refine (Res.NP.of_eq (piece_at_ok p ht)).bind fun o _ => ?_
    split
    · exact .ok _
    refine (np_color x).bind fun c _ => (np_hand p c).bind fun h _ => (np_kind x).bind fun k _ =>
      (np_removed h _).bind fun o _ => ?_
    cases o with
    | none => exact .ok _
    | some v =>
      exact (np_color x).bind fun c _ => (np_assign p c v).bind fun q _ => (np_piece_set q ht _).bind fun q _ =>
        np_finish q hm'

theorem np_callMove (p : PartialPosition) (v : U16) : (p.callMove v).NP := by
  by_cases hv : LooseMove v.toNat
  · obtain ⟨m, m', e1, _, e3, _, hm, _⟩ := word_moves hv
    simp only [PartialPosition.callMove, e1, e3, Res.bind_ok, PartialPosition.make_compact_move]
    exact (np_make_move p hm).bind fun _ _ => .ok _
  · rw [(C94_defined p v).2 hv]; exact nofun

theorem np_callMove_pos (p : Position) (v : U16) : (p.callMove v).NP := by
  by_cases hv : LooseMove v.toNat
  · have h := (C94_position p v).1 hv
    have h' := np_callMove p.inner v
    intro e
    rw [e] at h
    generalize p.inner.callMove v = x at h h'
    cases h; exact h' rfl
  · rw [(C94_position p v).2 hv]; exact nofun

/-! ### Text -/

section
variable {W : Type} [Write W]

/-- A formatter that does not panic. -/
def NPF {α : Type} (x : FmtM W α) : Prop := ∀ w, x w ≠ .panic

omit P in
theorem npf_wr (hW : ∀ (w : W) s, Write.write_str w s ≠ .panic) (cs : List (List U8)) :
    NPF (wr cs : FmtM W Unit) := by
  intro w
  show writeAll cs w ≠ .panic
  induction cs generalizing w with
  | nil => exact nofun
  | cons c cs ih =>
    unfold writeAll
    have h := hW w c
    generalize Write.write_str w c = x at h
    match x, h with
    | .ok (w', true), _ => exact ih w'
    | .ok (w', false), _ => exact nofun
    | .ub, _ => exact nofun

omit P [Write W] in
theorem NPF.bind {α β : Type} {x : FmtM W α} {f : α → FmtM W β} (h : NPF x) (hf : ∀ a, NPF (f a)) :
    NPF (x >>= f) := by
  intro w
  show FmtM.bind x f w ≠ .panic
  unfold FmtM.bind
  have h := h w
  generalize x w = y at h
  match y, h with
  | .ok (w', some a), _ => exact hf a w'
  | .ok (w', none), _ => exact nofun
  | .ub, _ => exact nofun

omit P in
theorem Goes.np (hW : ∀ (w : W) s, Write.write_str w s ≠ .panic) {g : Prop} {α : Type} {Q : α → Prop}
    {x : FmtM W α} (h : Goes g Q x) : NPF x := by
  rcases h with ⟨_, cs, a, rfl, _⟩ | ⟨_, cs, rfl⟩
  · exact (npf_wr hW cs).bind fun _ _ => nofun
  · exact (npf_wr hW cs).bind fun _ _ => nofun

theorem npf_sfen (hW : ∀ (w : W) s, Write.write_str w s ≠ .panic) (p : PartialPosition) :
    NPF (p.to_sfen : FmtM W Unit) := by
  unfold to_sfen
  rw [write_ascii_byte_ok (by decide), color_to_usi, hand_to_usi, write_u16_ok]
  have hb := (goes_board (W := W) p (List.range 9) (by simp)).np hW
  exact hb.bind fun _ => (npf_wr hW _).bind fun _ => (npf_wr hW _).bind fun _ => (npf_wr hW _).bind fun _ =>
    (npf_wr hW _).bind fun _ => (npf_wr hW _).bind fun _ => npf_wr hW _

end

omit P in
theorem np_bridge (w : Bridge) (s : List U8) : Write.write_str w s ≠ .panic := by
  have h : ∀ (s : List U8) p i m, (Bridge.writeBytes p i s m).NP := by
    intro s
    induction s with
    | nil => intro p i m; exact .ok _
    | cons b s ih =>
      intro p i m
      refine Res.NP.bind ?_ fun m _ => ih p (i + 1) m
      unfold Mem.write
      cases m (p + i) <;> exact nofun
  exact (h s _ _ _).bind fun _ _ => .ok _

theorem np_sfen_c (p : PartialPosition) (m : Mem) (ptr : Nat) : (p.to_sfen_c m ptr).NP := by
  unfold PartialPosition.to_sfen_c
  refine Res.NP.bind (npf_sfen np_bridge p _) ?_
  rintro ⟨s, _⟩ _
  refine Res.NP.bind ?_ fun _ _ => .ok _
  rw [write_ascii_byte_ok (by decide)]
  exact npf_wr np_bridge _ _

/-! ### Calls -/

omit P in
theorem Res.NP.ub {α : Type} {x : Res α} (h : x = .ub) : x.NP := by rw [h]; exact nofun

theorem np_def {c : CCall} (h : c.Defined) : c.exec.NP := by
  obtain ⟨r, e⟩ := (C93_defined c).2 h
  exact .of_eq e

omit P in
theorem np_color_arg (v : U8) : (Color.arg v).NP := by
  have t : ∀ n < 256, Color.arg (BitVec.ofNat 8 n) ≠ .panic := by decide +kernel
  exact at_byte (p := fun _ v => Color.arg v ≠ .panic) t v

omit P in
theorem np_kind_arg (v : U8) : (PieceKind.arg v).NP := by
  have t : ∀ n < 256, PieceKind.arg (BitVec.ofNat 8 n) ≠ .panic := by decide +kernel
  exact at_byte (p := fun _ v => PieceKind.arg v ≠ .panic) t v

omit P in
theorem np_resolution_arg (v : U8) : (GameResolution.arg v).NP := by
  have t : ∀ n < 256, GameResolution.arg (BitVec.ofNat 8 n) ≠ .panic := by decide +kernel
  exact at_byte (p := fun _ v => GameResolution.arg v ≠ .panic) t v

omit P in
/-- An argument that is taken or undefined, in a call that is defined if it is taken. -/
theorem np_arg {α β : Type} [Profile] {D : Prop} {x : Res α} {f : α → Res β} (h : x.NP) (ho : x.Out D)
    (hd : D → (x >>= f).NP) : (x >>= f).NP := by
  rcases ho with ⟨hD, _⟩ | ⟨_, e | ⟨e, _⟩⟩
  · exact hd hD
  · rw [e]; exact nofun
  · exact absurd e h

/-- A square in a call that is defined for squares, if its number is not too big. -/
theorem np_square {β : Type} (s : U8) (h : ¬ 81 < s.toNat) {f : Square → Res β}
    (hd : SquareByte s.toNat → (Square.arg s >>= f).NP) : (Square.arg s >>= f).NP := by
  rcases square_arg0 s with ⟨_, e⟩ | ⟨h0, _⟩
  · rw [e]; exact nofun
  · exact hd ⟨by omega, by omega⟩

theorem np_piece {β : Type} (x : U8) {f : Piece → Res β} (hf : ∀ x, (f x).NP) : (Piece.arg x >>= f).NP := by
  rcases piece_arg0 x with ⟨_, e⟩ | ⟨_, e⟩
  · rw [e]; exact nofun
  · rw [e]; exact hf _

theorem np_move {β : Type} (x : U16) {f : CompactMove → Res β} (hf : (f ⟨x⟩).NP) : (CompactMove.arg x >>= f).NP := by
  rcases move_arg0 x with ⟨_, e⟩ | ⟨_, e⟩
  · rw [e]; exact nofun
  · rw [e]; exact hf

theorem np_unchecked (v : U8) : (Square.from_u8_unchecked v).NP := by
  by_cases h : SquareByte v.toNat
  · exact .of_eq (Square.from_u8_unchecked_ok h)
  · exact .ub (unchecked_ub h)

theorem np_piece_bitboard (p : PartialPosition) (x : Piece) : (p.piece_bitboard x).NP := by
  refine (np_parts x).bind ?_
  rintro ⟨k, c⟩ _
  have h1 := piece_kind_bitboard_ok p k
  have h2 := player_bitboard_ok p c
  simp only [PartialPosition.piece_kind_bitboard, PartialPosition.player_bitboard, PieceKind.array_index_ok,
    Color.array_index_ok, Res.bind_ok] at h1 h2 ⊢
  rw [h1, Res.bind_ok, h2]; exact .ok _

theorem np_call (c : CCall) (h : ¬ c.Stray) : c.exec.NP := by
  cases c with
  | Bitboard_contains b s => exact np_square s h fun hs => np_def (c := .Bitboard_contains b s) hs
  | Bitboard_single s => exact np_square s h fun hs => np_def (c := .Bitboard_single s) hs
  | Square_file s => exact np_square s h fun hs => np_def (c := .Square_file s) hs
  | Square_flip s => exact np_square s h fun hs => np_def (c := .Square_flip s) hs
  | Square_index s => exact np_square s h fun hs => np_def (c := .Square_index s) hs
  | Square_rank s => exact np_square s h fun hs => np_def (c := .Square_rank s) hs
  | Square_shift s f r => exact np_square s h fun hs => np_def (c := .Square_shift s f r) hs
  | PartialPosition_piece_at p s => exact np_square s h fun hs => np_def (c := .PartialPosition_piece_at p s) hs
  | Position_piece_at p s => exact np_square s h fun hs => np_def (c := .Position_piece_at p s) hs
  | Square_relative_file s c =>
    exact np_square s h fun hs => by
      rcases square_arg0 s with ⟨_, e⟩ | ⟨_, e⟩
      · rw [e]; exact nofun
      · have hd := fun hc => np_def (c := .Square_relative_file s c) ⟨hs, hc⟩
        simp only [CCall.exec, e, Res.bind_ok] at hd ⊢
        exact np_arg (np_color_arg c) (color_arg c) hd
  | Square_relative_rank s c =>
    exact np_square s h fun hs => by
      rcases square_arg0 s with ⟨_, e⟩ | ⟨_, e⟩
      · rw [e]; exact nofun
      · have hd := fun hc => np_def (c := .Square_relative_rank s c) ⟨hs, hc⟩
        simp only [CCall.exec, e, Res.bind_ok] at hd ⊢
        exact np_arg (np_color_arg c) (color_arg c) hd
  | CompactMove_drop x t =>
    have h : ¬ 81 < t.toNat := h
    rcases piece_arg0 x with ⟨_, e⟩ | ⟨h0, e⟩
    · exact .ub (by simp only [CCall.exec, e]; rfl)
    · have hd := fun hs => np_def (c := .CompactMove_drop x t) ⟨h0, hs⟩
      simp only [CCall.exec, e, Res.bind_ok] at hd ⊢
      exact np_square t h hd
  | CompactMove_normal s t p =>
    have h : ¬ (81 < s.toNat ∨ 81 < t.toNat) := h
    exact np_square s (fun x => h (.inl x)) fun hs => by
      rcases square_arg0 s with ⟨_, e⟩ | ⟨_, e⟩
      · rw [e]; exact nofun
      · have hd := fun ht => np_def (c := .CompactMove_normal s t p) ⟨hs, ht⟩
        simp only [CCall.exec, e, Res.bind_ok] at hd ⊢
        exact np_square t (fun x => h (.inr x)) hd
  | Bitboard_pop b =>
    obtain ⟨_, h2⟩ := C93_pop b
    by_cases hd : (CCall.Bitboard_pop b).Defined
    · exact np_def hd
    · have : ∃ i, b.FirstBit i ∧ ¬ (i < 63 ∨ (i = 63 ∧ Profile.debug = false) ∨ (64 ≤ i ∧ i < 82)) := by
        exact Classical.byContradiction fun hn => hd fun i hi => Classical.byContradiction fun hc => hn ⟨i, hi, hc⟩
      obtain ⟨i, hi, hc⟩ := this
      have h63 : i ≠ 63 := by rintro rfl; exact h hi
      exact .ub (by simp only [CCall.exec, (h2 i hi).1 (by omega)]; rfl)
  | Color_flip c => exact np_arg (np_color_arg c) (color_arg c) (np_def (c := .Color_flip c))
  | PartialPosition_hand_of_a_player p c =>
    exact np_arg (np_color_arg c) (color_arg c) (np_def (c := .PartialPosition_hand_of_a_player p c))
  | PartialPosition_player_bitboard p c =>
    exact np_arg (np_color_arg c) (color_arg c) (np_def (c := .PartialPosition_player_bitboard p c))
  | Position_hand_of_a_player p c =>
    exact np_arg (np_color_arg c) (color_arg c) (np_def (c := .Position_hand_of_a_player p c))
  | Position_player_bitboard p c =>
    exact np_arg (np_color_arg c) (color_arg c) (np_def (c := .Position_player_bitboard p c))
  | Square_new_relative f r c =>
    exact np_arg (np_color_arg c) (color_arg c) (np_def (c := .Square_new_relative f r c))
  | Hand_add x k => exact np_arg (np_kind_arg k) (kind_arg k) (np_def (c := .Hand_add x k))
  | Hand_count x k => exact np_arg (np_kind_arg k) (kind_arg k) (np_def (c := .Hand_count x k))
  | Hand_is_hand_piece k => exact np_arg (np_kind_arg k) (kind_arg k) (np_def (c := .Hand_is_hand_piece k))
  | Hand_remove x k => exact np_arg (np_kind_arg k) (kind_arg k) (np_def (c := .Hand_remove x k))
  | PartialPosition_piece_kind_bitboard p k =>
    exact np_arg (np_kind_arg k) (kind_arg k) (np_def (c := .PartialPosition_piece_kind_bitboard p k))
  | PieceKind_promote k => exact np_arg (np_kind_arg k) (kind_arg k) (np_def (c := .PieceKind_promote k))
  | PieceKind_unpromote k => exact np_arg (np_kind_arg k) (kind_arg k) (np_def (c := .PieceKind_unpromote k))
  | Piece_new k c =>
    exact (np_kind_arg k).bind fun d _ => (np_color_arg c).bind fun e _ =>
      (Res.NP.of_eq (Piece.new_ok d e)).bind fun _ _ => .ok _
  | Game_resolve g r => exact (np_resolution_arg r).bind fun _ _ => .ok _
  | PartialGame_resolve g r => exact (np_resolution_arg r).bind fun _ _ => .ok _
  | Piece_color x => exact np_piece x fun x => (np_color x).bind fun _ _ => .ok _
  | Piece_piece_kind x => exact np_piece x fun x => (np_kind x).bind fun _ _ => .ok _
  | Piece_promote x => exact np_piece x fun x => ((np_promote x).bind fun _ _ => .ok _).bind fun _ _ => .ok _
  | Piece_unpromote x => exact np_piece x fun x => ((np_unpromote x).bind fun _ _ => .ok _).bind fun _ _ => .ok _
  | PartialPosition_piece_bitboard p x =>
    exact np_piece x fun x => (np_piece_bitboard p x).bind fun _ _ => .ok _
  | Position_piece_bitboard p x =>
    exact np_piece x fun x => (np_piece_bitboard p.inner x).bind fun _ _ => .ok _
  | CompactMove_is_drop m => exact np_move m (.ok _)
  | CompactMove_is_promoting m => exact np_move m (.ok _)
  | CompactMove_to m => exact np_move m ((np_unchecked _).bind fun _ _ => .ok _)
  | CompactMove_from m =>
    refine np_move m (Res.NP.bind (Res.NP.bind ?_ fun _ _ => .ok _) fun _ _ => .ok _)
    unfold CompactMove.src
    split
    · exact .ok _
    · exact (np_unchecked _).bind fun _ _ => .ok _
  | GameResolution_from_u8_unchecked v =>
    have t : ∀ n < 256, GameResolution.from_u8_unchecked (BitVec.ofNat 8 n) ≠ .panic := by decide +kernel
    exact Res.NP.bind (at_byte (p := fun _ v => GameResolution.from_u8_unchecked v ≠ .panic) t v) fun _ _ => .ok _
  | IllegalMoveKind_from_u8_unchecked v =>
    have t : ∀ n < 256, IllegalMoveKind.from_u8_unchecked (BitVec.ofNat 8 n) ≠ .panic := by decide +kernel
    exact Res.NP.bind (at_byte (p := fun _ v => IllegalMoveKind.from_u8_unchecked v ≠ .panic) t v) fun _ _ => .ok _
  | PieceKind_from_u8_unchecked v =>
    have t : ∀ n < 256, ShogiCore.PieceKind_from_u8_unchecked (BitVec.ofNat 8 n) ≠ .panic := by decide +kernel
    exact Res.NP.bind (at_byte (p := fun _ v => ShogiCore.PieceKind_from_u8_unchecked v ≠ .panic) t v) fun _ _ => .ok _
  | Square_from_u8_unchecked v => exact (np_unchecked v).bind fun _ _ => .ok _
  | _ => exact np_def trivial

/-! ### C95 -/

/-- **C95**: the calls are all the functions of the header. -/
theorem C95_complete (n : String) : n ∈ prototypes.map HSig.name ↔ ∃ e : CEntry, e.name = n := by
  have h := C93_complete n
  have t : ∀ x ∈ prototypes, x.args.any HType.byValue = false → x.name ∈
      ["Bitboard_pop", "PartialPosition_to_sfen_c", "Position_to_sfen_c", "PartialPosition_startpos",
        "Position_startpos", "Position_destruct", "Bitboard_empty", "Hand_new", "Game_position", "Game_resolution",
        "Game_unresolve", "PartialGame_position", "PartialGame_resolution", "PartialGame_unresolve",
        "PartialPosition_last_compact_move", "PartialPosition_occupied_bitboard", "PartialPosition_ply",
        "PartialPosition_side_to_move", "PartialPosition_vacant_bitboard", "Position_initial_position",
        "Position_inner", "Position_last_compact_move", "Position_occupied_bitboard", "Position_ply",
        "Position_side_to_move", "Position_vacant_bitboard"] := by decide +kernel
  constructor
  · intro hn
    obtain ⟨x, hx, rfl⟩ := List.mem_map.1 hn
    by_cases hv : x.args.any HType.byValue = true
    · rcases h.1 (.inl (List.mem_map.2 ⟨x, List.mem_filter.2 ⟨hx, hv⟩, rfl⟩)) with ⟨c, e⟩ | e | e
      · exact ⟨.call c, e⟩
      · exact ⟨.PartialPosition_make_compact_move .empty 0, e.symm⟩
      · exact ⟨.Position_make_compact_move ⟨.empty, .empty, []⟩ 0, e.symm⟩
    · have := t x hx (by simpa using hv)
      let p : PartialPosition := .empty
      let q : Position := ⟨p, p, []⟩
      let g : Game := ⟨q, ⟨0⟩⟩
      let s : PartialGame := ⟨p, ⟨0⟩⟩
      simp only [List.mem_cons, List.not_mem_nil, or_false] at this
      rcases this with e | e | e | e | e | e | e | e | e | e | e | e | e | e | e | e | e | e | e | e | e | e | e |
        e | e | e <;> rw [e]
      · exact ⟨.call (.Bitboard_pop .empty), rfl⟩
      · exact ⟨.PartialPosition_to_sfen_c p (fun _ => none) 0, rfl⟩
      · exact ⟨.Position_to_sfen_c q (fun _ => none) 0, rfl⟩
      · exact ⟨.PartialPosition_startpos, rfl⟩
      · exact ⟨.Position_startpos, rfl⟩
      · exact ⟨.Position_destruct q, rfl⟩
      · exact ⟨.Bitboard_empty, rfl⟩
      · exact ⟨.Hand_new, rfl⟩
      · exact ⟨.Game_position g, rfl⟩
      · exact ⟨.Game_resolution g, rfl⟩
      · exact ⟨.Game_unresolve g, rfl⟩
      · exact ⟨.PartialGame_position s, rfl⟩
      · exact ⟨.PartialGame_resolution s, rfl⟩
      · exact ⟨.PartialGame_unresolve s, rfl⟩
      · exact ⟨.PartialPosition_last_compact_move p, rfl⟩
      · exact ⟨.PartialPosition_occupied_bitboard p, rfl⟩
      · exact ⟨.PartialPosition_ply p, rfl⟩
      · exact ⟨.PartialPosition_side_to_move p, rfl⟩
      · exact ⟨.PartialPosition_vacant_bitboard p, rfl⟩
      · exact ⟨.Position_initial_position q, rfl⟩
      · exact ⟨.Position_inner q, rfl⟩
      · exact ⟨.Position_last_compact_move q, rfl⟩
      · exact ⟨.Position_occupied_bitboard q, rfl⟩
      · exact ⟨.Position_ply q, rfl⟩
      · exact ⟨.Position_side_to_move q, rfl⟩
      · exact ⟨.Position_vacant_bitboard q, rfl⟩
  · rintro ⟨e, rfl⟩
    cases e with
    | call c =>
      have h2 := (C93_complete c.name).2 (.inl ⟨c, rfl⟩)
      rcases h2 with h2 | h2
      · obtain ⟨x, hx, e⟩ := List.mem_map.1 h2
        exact List.mem_map.2 ⟨x, (List.mem_filter.1 hx).1, e⟩
      · show c.name ∈ _
        rw [h2]; decide +kernel
    | _ => simp only [CEntry.name]; decide +kernel

/-- **C95**: making a move never panics in any build, whatever the word and whatever bytes the
position holds. -/
theorem C95_moves (v : U16) :
    (∀ p : PartialPosition, p.callMove v ≠ .panic) ∧ ∀ p : Position, p.callMove v ≠ .panic :=
  ⟨fun p => np_callMove p v, fun p => np_callMove_pos p v⟩

/-- **C95**: nor does writing the text of a position, whatever bytes it holds, unless the sink panics;
into memory it does not at any address. -/
theorem C95_text (p : PartialPosition) :
    (∀ {W : Type} [Write W], (∀ (w : W) s, Write.write_str w s ≠ .panic) → ∀ w : W, p.to_sfen w ≠ .panic) ∧
    ∀ (m : Mem) (ptr : Nat), p.to_sfen_c m ptr ≠ .panic :=
  ⟨fun h w => npf_sfen h p w, np_sfen_c p⟩

/-- **C95**: in any build a panic means that the build checks arithmetic and that the number of a
square was above 81, or a square was taken from a bitboard whose first bit set is the one between
the two parts of the board. -/
theorem C95_debug (e : CEntry) (h : e.run = .panic) :
    Profile.debug = true ∧ ∃ c : CCall, e = .call c ∧ c.Stray := by
  have key : ∀ {x : Res (List Nat)} {q : Prop}, x.NP → x = .panic → q := fun h e => absurd e h
  cases e with
  | call c =>
    have h : c.exec = .panic := h
    have hd : ¬ c.Defined := fun hd => np_def hd h
    refine ⟨?_, c, rfl, Classical.byContradiction fun hs => np_call c hs h⟩
    rcases C93_undefined c hd with e | ⟨_, e⟩
    · rw [e] at h; cases h
    · exact e
  | PartialPosition_make_compact_move p v =>
    exact key (Res.NP.bind ((C95_moves v).1 p) fun _ _ => .ok _) h
  | Position_make_compact_move p v =>
    exact key (Res.NP.bind ((C95_moves v).2 p) fun _ _ => .ok _) h
  | PartialPosition_to_sfen_c p m ptr =>
    exact key (Res.NP.bind ((C95_text p).2 m ptr) fun _ _ => .ok _) h
  | Position_to_sfen_c p m ptr =>
    exact key (Res.NP.bind ((C95_text p.inner).2 m ptr) fun _ _ => .ok _) h
  | PartialPosition_startpos =>
    exact key (Res.NP.bind (.of_eq startpos_ok) fun _ _ => .ok _) h
  | Position_startpos =>
    exact key (Res.NP.bind (Res.NP.bind (.of_eq startpos_ok) fun _ _ => .ok _) fun _ _ => .ok _) h
  | _ => cases h

/-- **C95**: so in a release build no call panics, whatever numbers are passed and whatever bytes the
structs hold. -/
theorem C95_release (h : Profile.debug = false) (e : CEntry) : e.run ≠ .panic := by
  intro hp
  have := (C95_debug e hp).1
  rw [h] at this; cases this

/-! ### Concrete cases -/

-- a position that holds only bytes 255 and a word that is a drop of a code no piece has
def junk : PartialPosition :=
  { side := .White, ply := 65535, hands := .replicate 2 ⟨.replicate 8 255⟩, board := .replicate 81 ⟨255⟩
    player_bb := .replicate 2 ⟨-1, -1⟩, piece_bb := .replicate 14 ⟨-1, -1⟩, last_move := ⟨65535⟩
    king_square := .replicate 2 ⟨255⟩ }
example : junk.callMove 0x8132 ≠ .panic := (C95_moves _).1 _
-- a release build; a debug build panics on the square 82
example (e : CEntry) : @CEntry.run ⟨⟨false, .w64⟩⟩ e ≠ .panic := @C95_release ⟨⟨false, .w64⟩⟩ rfl e
example : @CEntry.run ⟨⟨true, .w64⟩⟩ (.call (.Square_file 82)) = .panic := by decide +kernel
example : @CEntry.run ⟨⟨false, .w64⟩⟩ (.call (.Square_file 82)) ≠ .panic := @C95_release ⟨⟨false, .w64⟩⟩ rfl _

end ShogiCore
