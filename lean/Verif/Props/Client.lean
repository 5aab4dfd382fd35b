import Verif.Spec.Client
import Verif.Props.Order
import Verif.Lemmas.SfenBound
import Verif.Props.Bitboard
import Verif.Props.Piece
import Verif.Props.Square
import Verif.Props.Hand

/- C48: safety of client programs. -/

namespace ShogiCore

set_option linter.unusedSectionVars false

/-- What is invariably true of the values of a client. -/
def Val.Sane : Val → Prop
  | .sq s => s.Valid
  | .pc p => p.Valid
  | .hand h => h.Valid
  | .mv m => m.Valid
  | .cmv c => c.Valid
  | .bb b => b.Canonical
  | .bsb b => b.swap_bytes.Canonical
  | .pos p => p.Ok
  | .position q => q.initial.Ok ∧ q.inner.Ok ∧ ∀ m ∈ q.moves, m.Valid
  | .pgame g => g.inner.Ok ∧ ∃ r, g.resolution.toOption = .ok r
  | .game g => (g.inner.initial.Ok ∧ g.inner.inner.Ok ∧ ∀ m ∈ g.inner.moves, m.Valid) ∧
      ∃ r, g.resolution.toOption = .ok r
  | .osq o => ∀ s, o.toOption = some s → s.Valid
  | .opc o => ∀ s, o.toOption = some s → s.Valid
  | .okind o => ∃ r, o.toOption = .ok r
  | .ocmv o => ∀ s, o.toOption = some s → s.Valid
  | .ogr o => ∃ r, o.toOption = .ok r
  | .rimk o => (∃ r, o.toOption = .ok r) ∧ ∃ r, o.toResult = .ok r

/-- The call succeeds with sane results. -/
def Fine (act : Res (List Val)) : Prop := ∃ vs, act = .ok vs ∧ ∀ v ∈ vs, v.Sane

theorem fine_ok {vs : List Val} (h : ∀ v ∈ vs, v.Sane) : Fine (.ok vs) := ⟨_, rfl, h⟩

theorem fine_ok1 {v : Val} (h : v.Sane) : Fine (.ok [v]) :=
  ⟨_, rfl, by intro v' hv; rw [List.mem_singleton.1 hv]; exact h⟩

theorem fine_nil {α : Type} {x : Res α} {a : α} (h : x = .ok a) : Fine (do let _ ← x; return []) := by
  subst h; exact ⟨[], rfl, by simp⟩

theorem fine_one {α : Type} {x : Res α} {f : α → Val} {a : α} (h : x = .ok a) (hs : (f a).Sane) :
    Fine (do return [f (← x)]) := by
  subst h; exact ⟨[f a], rfl, by simpa using hs⟩

theorem sane_opt {α : Type} {f : α → Val} {o : Option α} (h : ∀ a, o = some a → (f a).Sane) :
    ∀ v ∈ Val.opt f o, v.Sane := by
  cases o with
  | none => simp [Val.opt]
  | some a => simpa [Val.opt] using h a rfl

theorem fine_opt {α : Type} {x : Res (Option α)} {f : α → Val} {o : Option α} (h : x = .ok o)
    (hs : ∀ a, o = some a → (f a).Sane) : Fine (do return Val.opt f (← x)) := by
  subst h; exact ⟨Val.opt f o, rfl, sane_opt hs⟩

theorem osq_sane {o : Option Square} (h : ∀ s, o = some s → s.Valid) :
    (Val.osq (.ofOption o)).Sane := by
  intro s hs; rw [(C08_square o h).1] at hs; exact h s hs

theorem opc_sane {o : Option Piece} (h : ∀ s, o = some s → s.Valid) :
    (Val.opc (.ofOption o)).Sane := by
  intro s hs; rw [(C08_piece o h).1] at hs; exact h s hs

theorem ocmv_sane {o : Option CompactMove} (h : ∀ s, o = some s → s.Valid) :
    (Val.ocmv (.ofOption o)).Sane := by
  intro s hs; rw [(C08_compact_move o h).1] at hs; exact h s hs

theorem writeAll_calm {W : Type} [Write W] (hW : Calm W) : ∀ (cs : List (List U8)) (w : W),
    ∃ r, (wr cs : FmtM W Unit) w = .ok r
  | [], w => ⟨_, rfl⟩
  | c :: cs, w => by
    obtain ⟨⟨w', o⟩, e⟩ := hW w c
    unfold wr writeAll
    rw [e]
    cases o with
    | false => exact ⟨_, rfl⟩
    | true => exact writeAll_calm hW cs w'

theorem fine_wr {W : Type} [Write W] (hW : Calm W) {f : FmtM W Unit} {cs : List (List U8)}
    (h : f = wr cs) (w : W) : Fine (do let _ ← f w; return []) := by
  obtain ⟨r, e⟩ := writeAll_calm hW cs w
  rw [h]; exact fine_nil e

variable [P : Profile]

open PartialPosition in
theorem last_valid {p : PartialPosition} (h : p.Ok) :
    ∃ o, p.get_last_move = .ok o ∧ ∀ m, o = some m → m.Valid := by
  rcases get_last_ok h with ⟨_, e⟩ | ⟨c, m, _, hm, _, e⟩
  · exact ⟨_, e, by simp⟩
  · exact ⟨_, e, by intro m' h; cases h; exact hm⟩

theorem last_compact_valid {p : PartialPosition} (h : p.Ok) :
    ∀ m, p.last_compact_move = some m → m.Valid := by
  intro c hc
  exact h.last c hc

theorem move_total {p : PartialPosition} (hp : p.Ok) {m : Move} (hm : m.Valid) :
    ∃ q r, p.make_move m = .ok (q, r) ∧ q.Ok := by
  rcases PartialPosition.make_move_ok hp hm with ⟨_, q, e, he⟩ | ⟨_, e⟩
  · exact ⟨_, _, e, he.ok⟩
  · exact ⟨_, _, e, hp⟩

theorem position_move_total {q : Position} (hq : (Val.position q).Sane) {m : Move} (hm : m.Valid) :
    ∃ q' r, q.make_move m = .ok (q', r) ∧ (Val.position q').Sane := by
  obtain ⟨h1, h2, h3⟩ := hq
  obtain ⟨i, r, e, hi⟩ := move_total h2 hm
  rw [position_make_move, e]
  refine ⟨_, _, rfl, h1, hi, ?_⟩
  intro m' hm'
  cases r with
  | none => exact h3 _ hm'
  | some u =>
    rcases List.mem_append.1 hm' with h | h
    · exact h3 _ h
    · rw [List.mem_singleton.1 h]; exact hm

theorem from_u8_sane (f r : U8) : ∃ o, Square.new f r = .ok o ∧ ∀ s, o = some s → s.Valid := by
  by_cases h : 1 ≤ f.toNat ∧ f.toNat ≤ 9 ∧ 1 ≤ r.toNat ∧ r.toNat ≤ 9
  · obtain ⟨s, e, hs, _⟩ := (C01_new f r).1 h
    exact ⟨_, e, by intro s' h; cases h; exact hs⟩
  · exact ⟨_, (C01_new f r).2 h, by simp⟩

theorem new_relative_sane (f r : U8) (c : Color) :
    ∃ o, Square.new_relative f r c = .ok o ∧ ∀ s, o = some s → s.Valid := by
  by_cases h : 1 ≤ f.toNat ∧ f.toNat ≤ 9 ∧ 1 ≤ r.toNat ∧ r.toNat ≤ 9
  · obtain ⟨s, e, hs, _⟩ := (C04_new_relative f r c).1 h
    exact ⟨_, e, by intro s' h; cases h; exact hs⟩
  · exact ⟨_, (C04_new_relative f r c).2 h, by simp⟩

theorem to_sfen_c_total {p : PartialPosition} (hp : p.Ok) {m : Mem} {ptr : Nat}
    (h : ∀ k < 236, m (ptr + k) ≠ none) : ∃ m', p.to_sfen_c m ptr = .ok m' := by
  have hl := sfen_le p (p.handOf .Black) (p.handOf .White)
  rcases to_sfen_c_ok hp m ptr with ⟨_, e⟩ | ⟨⟨k, hk, e⟩, _⟩
  · exact ⟨_, e⟩
  · exact absurd e (h k (by omega))

theorem added_sane {h : Hand} (hv : h.Valid) (k : PieceKind) :
    ∃ o, h.added k = .ok o ∧ ∀ g, o = some g → g.Valid := by
  refine ⟨_, Hand.added_ok h k, ?_⟩
  intro g hg
  split at hg
  · cases hg; exact Hand.setCell_valid hv _ _ _
  · cases hg

theorem removed_sane {h : Hand} (hv : h.Valid) (k : PieceKind) :
    ∃ o, h.removed k = .ok o ∧ ∀ g, o = some g → g.Valid := by
  refine ⟨_, Hand.removed_ok h k, ?_⟩
  intro g hg
  split at hg
  · split at hg
    · cases hg
    · cases hg; exact Hand.setCell_valid hv _ _ _
  · cases hg

theorem piece_at_sane {p : PartialPosition} (hp : p.Ok) {s : Square} (hs : s.Valid) :
    ∃ o, p.piece_at s = .ok o ∧ ∀ x, o = some x → x.Valid :=
  ⟨_, PartialPosition.piece_at_ok p hs, fun x hx => hp.cells _ x hx⟩

theorem occupied_canonical {p : PartialPosition} (hp : p.Ok) : p.occupied_bitboard.Canonical := by
  have := Bitboard.bitor_canonical (hp.player .Black) (hp.player .White)
  exact this

theorem pop_sane {b : Bitboard} (hb : b.Canonical) :
    ∃ b' o, b.pop = .ok (b', o) ∧ b'.Canonical ∧ ∀ s, o = some s → s.Valid := by
  rcases Bitboard.pop_ok hb with ⟨_, e⟩ | ⟨i, b', hi, _, _, e, hc, _⟩
  · exact ⟨_, _, e, hb, by simp⟩
  · exact ⟨_, _, e, hc, by intro s hs; cases hs; exact Square.ofIdx_valid hi⟩

theorem op_swapped {a b : ByteSwappedBitboard} (ha : a.swap_bytes.Canonical)
    (hb : b.swap_bytes.Canonical) :
    (a.or b).swap_bytes.Canonical ∧ (a.and b).swap_bytes.Canonical ∧
    (a.xor b).swap_bytes.Canonical ∧ (a.andnot b).swap_bytes.Canonical := by
  have h := C24_ops a.swap_bytes b.swap_bytes
  simp only [(C24_swap_swap ⟨0, 0⟩ _).2] at h
  obtain ⟨h1, h2, h3, h4⟩ := h
  rw [h1, h2, h3, h4]
  simp only [(C24_swap_swap _ ⟨0, 0⟩).1]
  exact ⟨Bitboard.bitor_canonical ha hb, Bitboard.bitand_canonical ha,
    Bitboard.bitxor_canonical ha hb, Bitboard.andnot_canonical hb⟩

theorem startpos_total : ∃ p, PartialPosition.startpos = .ok p ∧ p.Ok :=
  ⟨_, PartialPosition.startpos_ok, PartialPosition.sp0_ok⟩

theorem promoted_valid (o : Option PieceKind) (c : Color) :
    ∀ x, o.map (Piece.mk' · c) = some x → x.Valid := by
  intro x hx
  cases o with
  | none => cases hx
  | some k => cases hx; exact Piece.mk'_valid k c

theorem src_valid {m : Move} (hm : m.Valid) : ∀ s, m.src = some s → s.Valid := by
  intro s hs
  cases m with
  | Normal s' t pr => cases hs; exact hm.1
  | Drop p t => cases hs

theorem to_valid {m : Move} (hm : m.Valid) : m.to.Valid := by
  cases m with
  | Normal s' t pr => exact hm.2
  | Drop p t => exact hm.2

omit P in
theorem kind_unchecked (v : U8) (h : 1 ≤ v.toNat ∧ v.toNat ≤ 14) :
    ∃ k, PieceKind.from_u8_unchecked v = .ok k ∧ k.toU8 = v := by
  revert v; exact forall_u8 (by decide +kernel)

omit P in
theorem resolution_unchecked (v : U8) (h : 1 ≤ v.toNat ∧ v.toNat ≤ 5) :
    ∃ k, GameResolution.from_u8_unchecked v = .ok k := by
  have : v.toNat = 1 ∨ v.toNat = 2 ∨ v.toNat = 3 ∨ v.toNat = 4 ∨ v.toNat = 5 := by omega
  rcases this with e | e | e | e | e <;>
    (simp only [GameResolution.from_u8_unchecked, e]; exact ⟨_, rfl⟩)

omit P in
theorem illegal_unchecked (v : U8) (h : 1 ≤ v.toNat ∧ v.toNat ≤ 7) :
    ∃ k, IllegalMoveKind.from_u8_unchecked v = .ok k := by
  have : v.toNat = 1 ∨ v.toNat = 2 ∨ v.toNat = 3 ∨ v.toNat = 4 ∨ v.toNat = 5 ∨ v.toNat = 6 ∨
    v.toNat = 7 := by omega
  rcases this with e | e | e | e | e | e | e <;>
    (simp only [IllegalMoveKind.from_u8_unchecked, e]; exact ⟨_, rfl⟩)

omit P in
theorem rimk_option (o : Option IllegalMoveKind) : (Val.rimk (.ofOption o)).Sane := by
  refine ⟨⟨_, (C08_illegal_move_kind (.ok ()) o).2.2.1⟩, ?_⟩
  cases o with
  | none => exact ⟨_, (C08_illegal_move_kind (.ok ()) none).1⟩
  | some k => exact ⟨_, (C08_illegal_move_kind (.error k) none).1⟩

omit P in
theorem rimk_result (r : Except IllegalMoveKind Unit) : (Val.rimk (.ofResult r)).Sane := by
  cases r with
  | error k => exact rimk_option (some k)
  | ok u => exact rimk_option none

omit P in
theorem square_const_sane {name : String} {v : Nat} (h : (name, v) ∈ square_consts_assoc) :
    ∃ s, Square.const name = .ok s ∧ s.Valid := by
  have ht : ∀ e ∈ square_consts_assoc, square_consts_assoc.lookup e.1 = some e.2 ∧ 1 ≤ e.2 ∧
      e.2 ≤ 81 := by decide +kernel
  obtain ⟨h1, h2, h3⟩ := ht _ h
  have hv : (⟨BitVec.ofNat 8 v⟩ : Square).Valid := by
    show 1 ≤ (BitVec.ofNat 8 v).toNat ∧ (BitVec.ofNat 8 v).toNat ≤ 81
    simp only [BitVec.toNat_ofNat] at *; omega
  refine ⟨_, ?_, hv⟩
  unfold Square.const
  simp only at h1
  rw [h1]; exact Square.from_u8_unchecked_ok hv

/-- Calls with sane arguments return, with sane results. -/
theorem call_fine {args : List Val} {act : Res (List Val)} (h : ApiCall args act)
    (ha : ∀ a ∈ args, a.Sane) : Fine act := by
  cases h with
  | color_flip c => obtain ⟨d, e, _⟩ := (C07_kind_color.2.2.2.2.2.2 c).1; exact fine_nil e
  | color_array_index c => exact fine_nil c.array_index_ok
  | color_to_usi c w hW => exact fine_wr hW (color_to_usi c) w
  | kind_from_u8 v =>
    by_cases h : 1 ≤ v.toNat ∧ v.toNat ≤ 14
    · obtain ⟨k, e, _⟩ := (C08_piece_kind_from_u8 v).1 h; exact fine_nil e
    · exact fine_nil ((C08_piece_kind_from_u8 v).2 h)
  | kind_from_u8_unchecked v h =>
    obtain ⟨k, e, _⟩ := kind_unchecked v h; exact fine_nil e
  | kind_array_index k => exact fine_nil k.array_index_ok
  | kind_to_usi k w hW => exact fine_wr hW (kind_to_usi k) w
  | kind_from_u8_c v =>
    have : ∃ o, PieceKind.from_u8 v = .ok o := by
      by_cases h : 1 ≤ v.toNat ∧ v.toNat ≤ 14
      · obtain ⟨k, e, _⟩ := (C08_piece_kind_from_u8 v).1 h; exact ⟨_, e⟩
      · exact ⟨_, (C08_piece_kind_from_u8 v).2 h⟩
    obtain ⟨o, e⟩ := this
    exact fine_one (by rw [PieceKind_from_u8, e]; rfl) ⟨_, (C08_piece_kind o).1⟩
  | kind_promote_c k => exact fine_ok1 ⟨_, (C08_piece_kind _).1⟩
  | kind_unpromote_c k => exact fine_ok1 ⟨_, (C08_piece_kind _).1⟩
  | kind_option o => exact fine_ok1 ⟨_, (C08_piece_kind _).1⟩
  | kind_of_option o => obtain ⟨r, e⟩ := ha (.okind o) (by simp); exact fine_nil e
  | resolution_from_u8_unchecked v h =>
    obtain ⟨k, e⟩ := resolution_unchecked v h; exact fine_nil e
  | resolution_default => exact fine_ok1 ⟨_, rfl⟩
  | resolution_option o => exact fine_ok1 ⟨_, (C08_game_resolution _).1⟩
  | resolution_of_option o => obtain ⟨r, e⟩ := ha (.ogr o) (by simp); exact fine_nil e
  | illegal_from_u8 v =>
    by_cases h : 1 ≤ v.toNat ∧ v.toNat ≤ 7
    · obtain ⟨k, e, _⟩ := (C08_illegal_move_kind_from_u8 v).1 h; exact fine_nil e
    · exact fine_nil ((C08_illegal_move_kind_from_u8 v).2 h)
  | illegal_from_u8_unchecked v h =>
    obtain ⟨k, e⟩ := illegal_unchecked v h; exact fine_nil e
  | illegal_default => exact fine_ok1 ⟨⟨_, rfl⟩, ⟨_, rfl⟩⟩
  | illegal_option o => exact fine_ok1 (rimk_option o)
  | illegal_of_option o => obtain ⟨⟨r, e⟩, _⟩ := ha (.rimk o) (by simp); exact fine_nil e
  | illegal_result r => exact fine_ok1 (rimk_result r)
  | illegal_of_result o => obtain ⟨_, ⟨r, e⟩⟩ := ha (.rimk o) (by simp); exact fine_nil e
  | square_new f r => obtain ⟨o, e, h⟩ := from_u8_sane f r; exact fine_opt e h
  | square_new_c f r =>
    obtain ⟨o, e, h⟩ := from_u8_sane f r
    exact fine_one (by rw [Square_new, e]; rfl) (osq_sane h)
  | square_new_relative f r c => obtain ⟨o, e, h⟩ := new_relative_sane f r c; exact fine_opt e h
  | square_new_relative_c f r c =>
    obtain ⟨o, e, h⟩ := new_relative_sane f r c
    exact fine_one (by rw [Square_new_relative, e]; rfl) (osq_sane h)
  | square_const name v h => obtain ⟨s, e, hs⟩ := square_const_sane h; exact fine_one e hs
  | square_file s => exact fine_nil (Square.file_ok (ha (.sq s) (by simp)))
  | square_rank s => exact fine_nil (Square.rank_ok (ha (.sq s) (by simp)))
  | square_index s => exact fine_nil (Square.index_ok (ha (.sq s) (by simp)))
  | square_relative_file s c =>
    have hs : s.Valid := ha (.sq s) (by simp)
    obtain ⟨h1, h2, h3, h4⟩ := C04_relative s hs
    have hf : (Square.ofIdx (80 - s.idx0)).Valid :=
      Square.ofIdx_valid (by have := Square.idx0_lt hs; omega)
    cases c
    · exact fine_nil (h1.trans (Square.file_ok hs))
    · exact fine_nil (h3.trans (by rw [Square.flip_ok hs, Res.bind_ok, Square.file_ok hf]))
  | square_relative_rank s c =>
    have hs : s.Valid := ha (.sq s) (by simp)
    obtain ⟨h1, h2, h3, h4⟩ := C04_relative s hs
    have hf : (Square.ofIdx (80 - s.idx0)).Valid :=
      Square.ofIdx_valid (by have := Square.idx0_lt hs; omega)
    cases c
    · exact fine_nil (h2.trans (Square.rank_ok hs))
    · exact fine_nil (h4.trans (by rw [Square.flip_ok hs, Res.bind_ok, Square.rank_ok hf]))
  | square_flip s =>
    have hs : s.Valid := ha (.sq s) (by simp)
    exact fine_one (Square.flip_ok hs) (Square.ofIdx_valid (by have := Square.idx0_lt hs; omega))
  | square_from_u8 v =>
    exact fine_ok (sane_opt fun s hs => (C02_from_u8_index v s hs).1)
  | square_from_u8_unchecked v h => exact fine_one (Square.from_u8_unchecked_ok h) h
  | square_shift s df dr =>
    have hs : s.Valid := ha (.sq s) (by simp)
    refine fine_opt (Square.shift_ok s hs df dr) ?_
    intro t ht
    split at ht
    · rename_i hb
      cases ht
      apply Square.ofIdx_valid
      obtain ⟨_, _, _, _⟩ := hb
      omega
    · cases ht
  | square_array_index s => exact fine_nil (Square.array_index_ok (ha (.sq s) (by simp)))
  | square_all =>
    obtain ⟨l, e, hl, _⟩ := C02_all
    rw [e]; refine fine_ok ?_
    intro v hv; obtain ⟨s, hs, rfl⟩ := List.mem_map.1 hv; exact (hl s).1 hs
  | square_to_usi s w hW => exact fine_wr hW (square_to_usi (ha (.sq s) (by simp))) w
  | square_some s =>
    exact fine_ok1 (osq_sane (by intro t ht; cases ht; exact ha (.sq s) (by simp)))
  | square_none => exact fine_ok1 (osq_sane (by simp))
  | square_of_option o => exact fine_ok (sane_opt (ha (.osq o) (by simp)))
  | piece_new k c => exact fine_one (Piece.new_ok k c) (Piece.mk'_valid k c)
  | piece_const name k c h =>
    obtain ⟨kind, color, _, e, _⟩ := C05_piece_consts name k c h
    rw [Piece.new_ok] at e; exact fine_one e (Piece.mk'_valid _ _)
  | piece_to_parts p =>
    obtain ⟨k, c, rfl⟩ := Piece.exists_mk' (ha (.pc p) (by simp))
    exact fine_nil (Piece.to_parts_mk' k c)
  | piece_kind p =>
    obtain ⟨k, c, rfl⟩ := Piece.exists_mk' (ha (.pc p) (by simp))
    exact fine_nil (Piece.piece_kind_mk' k c)
  | piece_color p =>
    obtain ⟨k, c, rfl⟩ := Piece.exists_mk' (ha (.pc p) (by simp))
    exact fine_nil (Piece.color_mk' k c)
  | piece_promote p =>
    obtain ⟨k, c, rfl⟩ := Piece.exists_mk' (ha (.pc p) (by simp))
    exact fine_opt (Piece.promote_mk' k c) (promoted_valid _ c)
  | piece_promote_c p =>
    obtain ⟨k, c, rfl⟩ := Piece.exists_mk' (ha (.pc p) (by simp))
    exact fine_one (by rw [Piece_promote, Piece.promote_mk']; rfl) (opc_sane (promoted_valid _ c))
  | piece_unpromote p =>
    obtain ⟨k, c, rfl⟩ := Piece.exists_mk' (ha (.pc p) (by simp))
    exact fine_opt (Piece.unpromote_mk' k c) (promoted_valid _ c)
  | piece_unpromote_c p =>
    obtain ⟨k, c, rfl⟩ := Piece.exists_mk' (ha (.pc p) (by simp))
    exact fine_one (by rw [Piece_unpromote, Piece.unpromote_mk']; rfl)
      (opc_sane (promoted_valid _ c))
  | piece_array_index p =>
    obtain ⟨i, e, _⟩ := C07_array_index p (ha (.pc p) (by simp)); exact fine_nil e
  | piece_all =>
    obtain ⟨l, e, _, hl⟩ := C07_all
    rw [e]; refine fine_ok ?_
    intro v hv; obtain ⟨s, hs, rfl⟩ := List.mem_map.1 hv; exact (hl s).1 hs
  | piece_to_usi p w hW =>
    obtain ⟨k, c, rfl⟩ := Piece.exists_mk' (ha (.pc p) (by simp))
    exact fine_wr hW (piece_to_usi k c) w
  | piece_some s =>
    exact fine_ok1 (opc_sane (by intro t ht; cases ht; exact ha (.pc s) (by simp)))
  | piece_none => exact fine_ok1 (opc_sane (by simp))
  | piece_of_option o => exact fine_ok (sane_opt (ha (.opc o) (by simp)))
  | hand_new => exact fine_ok1 Hand.new_valid
  | hand_added h k =>
    obtain ⟨o, e, ho⟩ := added_sane (ha (.hand h) (by simp)) k; exact fine_opt e ho
  | hand_removed h k =>
    obtain ⟨o, e, ho⟩ := removed_sane (ha (.hand h) (by simp)) k; exact fine_opt e ho
  | hand_count h k => exact fine_nil (Hand.count_ok h k)
  | hand_add_c h k =>
    have hv : h.Valid := ha (.hand h) (by simp)
    obtain ⟨o, e, ho⟩ := added_sane hv k
    rw [Hand.Hand_add, e]
    cases o with
    | none => exact fine_ok1 hv
    | some g => exact fine_ok1 (ho g rfl)
  | hand_remove_c h k =>
    have hv : h.Valid := ha (.hand h) (by simp)
    obtain ⟨o, e, ho⟩ := removed_sane hv k
    rw [Hand.Hand_remove, e]
    cases o with
    | none => exact fine_ok1 hv
    | some g => exact fine_ok1 (ho g rfl)
  | hand_count_c h k =>
    rw [Hand.Hand_count, Hand.count_ok]
    by_cases hk : k.InHand
    · rw [dif_pos hk]; exact fine_ok (by simp)
    · rw [dif_neg hk]; exact fine_ok (by simp)
  | hand_all => obtain ⟨_, l, e, _⟩ := C09_hand_pieces; exact fine_nil e
  | hand_to_usi b w s hW => exact fine_wr hW (hand_to_usi _) s
  | move_normal s t pr =>
    exact fine_ok1 (show Move.Valid (.Normal s t pr) from
      ⟨ha (.sq s) (by simp), ha (.sq t) (by simp)⟩)
  | move_drop p t =>
    exact fine_ok1 (show Move.Valid (.Drop p t) from ⟨ha (.pc p) (by simp), ha (.sq t) (by simp)⟩)
  | move_from m =>
    have hm : m.Valid := ha (.mv m) (by simp)
    refine fine_ok (sane_opt ?_)
    intro s hs
    cases m with
    | Normal s' t pr => cases hs; exact hm.1
    | Drop p t => cases hs
  | move_to m =>
    have hm : m.Valid := ha (.mv m) (by simp)
    refine fine_ok1 ?_
    cases m with
    | Normal s' t pr => exact hm.2
    | Drop p t => exact hm.2
  | move_piece p t =>
    have hm : Move.Valid (.Drop p t) := ha (.mv (.Drop p t)) (by simp)
    refine fine_ok ?_
    intro v hv
    simp only [List.mem_cons, List.not_mem_nil, or_false] at hv
    rcases hv with rfl | rfl
    · exact hm.1
    · exact hm.2
  | move_to_usi m w hW => exact fine_wr hW (move_to_usi (ha (.mv m) (by simp))) w
  | compact_of_move m =>
    have hm : m.Valid := ha (.mv m) (by simp)
    obtain ⟨c, e, he⟩ := CompactMove.ofMove_ok hm
    exact fine_one e ⟨m, hm, he⟩
  | compact_to_move c =>
    obtain ⟨m, hm, he⟩ := ha (.cmv c) (by simp)
    exact fine_one (CompactMove.toMove_of_encodes hm he) hm
  | compact_normal s t pr =>
    have hs : s.Valid := ha (.sq s) (by simp)
    have ht : t.Valid := ha (.sq t) (by simp)
    obtain ⟨c, e, he⟩ := CompactMove.normal_ok hs ht pr
    exact fine_one e ⟨.Normal s t pr, ⟨hs, ht⟩, he⟩
  | compact_drop p t =>
    have hs : p.Valid := ha (.pc p) (by simp)
    have ht : t.Valid := ha (.sq t) (by simp)
    obtain ⟨c, e, he⟩ := CompactMove.drop_ok hs ht
    exact fine_one e ⟨.Drop p t, ⟨hs, ht⟩, he⟩
  | compact_from c =>
    obtain ⟨m, hm, he⟩ := ha (.cmv c) (by simp)
    refine fine_opt (CompactMove.src_of_encodes hm he) (src_valid hm)
  | compact_from_c c =>
    obtain ⟨m, hm, he⟩ := ha (.cmv c) (by simp)
    exact fine_one (by rw [CompactMove_from, CompactMove.src_of_encodes hm he]; rfl)
      (osq_sane (src_valid hm))
  | compact_to c =>
    obtain ⟨m, hm, he⟩ := ha (.cmv c) (by simp)
    exact fine_one (CompactMove.to_of_encodes hm he) (to_valid hm)
  | compact_to_usi c w hW =>
    obtain ⟨m, hm, he⟩ := ha (.cmv c) (by simp)
    refine fine_wr hW (cs := moveChunks m) ?_ w
    rw [CompactMove.to_usi, CompactMove.toMove_of_encodes hm he, FmtM.lift_ok, pure_bind,
      move_to_usi hm]
  | compact_some s =>
    exact fine_ok1 (ocmv_sane (by intro t ht; cases ht; exact ha (.cmv s) (by simp)))
  | compact_none => exact fine_ok1 (ocmv_sane (by simp))
  | compact_of_option o => exact fine_ok (sane_opt (ha (.ocmv o) (by simp)))
  | bb_empty => exact fine_ok1 Bitboard.empty_canonical
  | bb_single s =>
    have hs : s.Valid := ha (.sq s) (by simp)
    exact fine_one (Bitboard.single_ok hs) (Bitboard.one_canonical (Square.idx0_lt hs))
  | bb_count b => exact fine_nil (Bitboard.count_ok (ha (.bb b) (by simp)))
  | bb_contains b s => exact fine_nil (Bitboard.contains_ok b (ha (.sq s) (by simp)))
  | bb_flip b => exact fine_ok1 (Bitboard.flip_canonical b)
  | bb_pop b =>
    obtain ⟨b', o, e, hc, ho⟩ := pop_sane (ha (.bb b) (by simp))
    rw [e]; refine fine_ok ?_
    intro v hv
    rcases List.mem_cons.1 hv with rfl | hv
    · exact hc
    · exact sane_opt (f := Val.sq) ho v hv
  | bb_pop_c b =>
    obtain ⟨b', o, e, hc, ho⟩ := pop_sane (ha (.bb b) (by simp))
    rw [Bitboard_pop, e]; refine fine_ok ?_
    intro v hv
    simp only [List.mem_cons, List.not_mem_nil, or_false] at hv
    rcases hv with rfl | rfl
    · exact hc
    · exact osq_sane ho
  | bb_iterate b fuel =>
    rw [Bitboard.iterate_ok fuel (ha (.bb b) (by simp))]
    by_cases hl : b.bits.length < fuel
    · rw [if_pos hl]
      refine fine_ok ?_
      intro v hv
      obtain ⟨s, hs, rfl⟩ := List.mem_map.1 hv
      obtain ⟨i, hi, rfl⟩ := List.mem_map.1 hs
      exact Square.ofIdx_valid (Bitboard.mem_bits.1 hi).1
    · rw [if_neg hl]; exact fine_ok (by simp)
  | bb_from_u128 a h => exact fine_ok1 h
  | bb_from_file f p hf hp =>
    obtain ⟨b, e, hc, _⟩ := C23_from_file f hf p hp; exact fine_one e hc
  | bb_get_file b f hf => obtain ⟨p, e, _⟩ := C23_get_file b f hf; exact fine_nil e
  | bb_or a b =>
    exact fine_ok1 (Bitboard.bitor_canonical (ha (.bb a) (by simp)) (ha (.bb b) (by simp)))
  | bb_and a b => exact fine_ok1 (Bitboard.bitand_canonical (ha (.bb a) (by simp)))
  | bb_xor a b =>
    exact fine_ok1 (Bitboard.bitxor_canonical (ha (.bb a) (by simp)) (ha (.bb b) (by simp)))
  | bb_andnot a b => exact fine_ok1 (Bitboard.andnot_canonical (ha (.bb b) (by simp)))
  | bb_bitor a b =>
    exact fine_ok1 (Bitboard.bitor_canonical (ha (.bb a) (by simp)) (ha (.bb b) (by simp)))
  | bb_bitand a b => exact fine_ok1 (Bitboard.bitand_canonical (ha (.bb a) (by simp)))
  | bb_bitxor a b =>
    exact fine_ok1 (Bitboard.bitxor_canonical (ha (.bb a) (by simp)) (ha (.bb b) (by simp)))
  | bb_not a => exact fine_ok1 (Bitboard.not_canonical a)
  | bb_and_sq a s =>
    have hs : s.Valid := ha (.sq s) (by simp)
    exact fine_one (by rw [Bitboard.bitand_assign_sq, Bitboard.single_ok hs]; rfl)
      (Bitboard.bitand_canonical (ha (.bb a) (by simp)))
  | bb_or_sq a s =>
    have hs : s.Valid := ha (.sq s) (by simp)
    exact fine_one (by rw [Bitboard.bitor_assign_sq, Bitboard.single_ok hs]; rfl)
      (Bitboard.bitor_canonical (ha (.bb a) (by simp)) (Bitboard.one_canonical (Square.idx0_lt hs)))
  | bb_xor_sq a s =>
    have hs : s.Valid := ha (.sq s) (by simp)
    exact fine_one (by rw [Bitboard.bitxor_assign_sq, Bitboard.single_ok hs]; rfl)
      (Bitboard.bitxor_canonical (ha (.bb a) (by simp))
        (Bitboard.one_canonical (Square.idx0_lt hs)))
  | bb_shift_down b d hd =>
    obtain ⟨b', e, hc, _⟩ := C20_shift_down b (ha (.bb b) (by simp)) d hd; exact fine_one e hc
  | bb_shift_up b d hd =>
    obtain ⟨b', e, hc, _⟩ := C20_shift_up b (ha (.bb b) (by simp)) d hd; exact fine_one e hc
  | bb_shift_left b d hd =>
    obtain ⟨b', e, hc, _⟩ := C21_shift_left b (ha (.bb b) (by simp)) d hd; exact fine_one e hc
  | bb_shift_right b d hd =>
    obtain ⟨b', e, hc, _⟩ := C22_shift_right b (ha (.bb b) (by simp)) d hd.2
      (by intro h; omega)
    exact fine_one e hc
  | bb_swap b =>
    refine fine_ok1 ?_
    show b.swap_bytes.swap_bytes.Canonical
    rw [(C24_swap_swap b ⟨0, 0⟩).1]; exact ha (.bb b) (by simp)
  | bsb_default => exact fine_ok1 (by show Bitboard.Canonical _; decide)
  | bsb_from_u128 a h => exact fine_ok1 h
  | bsb_or a b => exact fine_ok1 (op_swapped (ha (.bsb a) (by simp)) (ha (.bsb b) (by simp))).1
  | bsb_and a b => exact fine_ok1 (op_swapped (ha (.bsb a) (by simp)) (ha (.bsb b) (by simp))).2.1
  | bsb_xor a b =>
    exact fine_ok1 (op_swapped (ha (.bsb a) (by simp)) (ha (.bsb b) (by simp))).2.2.1
  | bsb_andnot a b =>
    exact fine_ok1 (op_swapped (ha (.bsb a) (by simp)) (ha (.bsb b) (by simp))).2.2.2
  | bsb_swap a => exact fine_ok1 (ha (.bsb a) (by simp))
  | pos_empty => exact fine_ok1 PartialPosition.empty_ok
  | pos_startpos => obtain ⟨p, e, hp⟩ := startpos_total; exact fine_one e hp
  | pos_side_set p c =>
    exact fine_ok1 (PartialPosition.step_ok (ha (.pos p) (by simp)) .side)
  | pos_ply_set p n => exact fine_ok1 (PartialPosition.step_ok (ha (.pos p) (by simp)) .ply)
  | pos_hand_of p c =>
    have hp : p.Ok := ha (.pos p) (by simp)
    exact fine_one (PartialPosition.hand_of_a_player_ok p c) (hp.hand c)
  | pos_hand_mut p c h =>
    have hp : p.Ok := ha (.pos p) (by simp)
    exact fine_one (PartialPosition.hand_assign_ok p c h) (hp.setHand c (ha (.hand h) (by simp)))
  | pos_hand p x =>
    obtain ⟨k, c, rfl⟩ := Piece.exists_mk' (ha (.pc x) (by simp))
    exact fine_nil ((PartialPosition.hand_ok p k c).trans (Hand.count_ok _ k))
  | pos_piece_at p s =>
    obtain ⟨o, e, ho⟩ := piece_at_sane (ha (.pos p) (by simp)) (ha (.sq s) (by simp))
    exact fine_opt e ho
  | pos_piece_at_c p s =>
    have hp : p.Ok := ha (.pos p) (by simp)
    exact fine_one (PartialPosition.PartialPosition_piece_at_ok p (ha (.sq s) (by simp)))
      (opc_sane fun x hx => hp.cells _ x hx)
  | pos_piece_set p s x =>
    obtain ⟨q, e, he⟩ := PartialPosition.piece_set_ok (ha (.pos p) (by simp)) (ha (.sq s) (by simp))
      (o := some x) (by intro y hy; cases hy; exact ha (.pc x) (by simp))
    exact fine_one e he.ok
  | pos_piece_clear p s =>
    obtain ⟨q, e, he⟩ := PartialPosition.piece_set_ok (ha (.pos p) (by simp)) (ha (.sq s) (by simp))
      (o := none) (by simp)
    exact fine_one e he.ok
  | pos_occupied p => exact fine_ok1 (occupied_canonical (ha (.pos p) (by simp)))
  | pos_vacant p => exact fine_ok1 (Bitboard.not_canonical _)
  | pos_player_bb p c =>
    have hp : p.Ok := ha (.pos p) (by simp)
    exact fine_one (PartialPosition.player_bitboard_ok p c) (hp.player c)
  | pos_piece_bb p x =>
    have hp : p.Ok := ha (.pos p) (by simp)
    obtain ⟨k, c, rfl⟩ := Piece.exists_mk' (ha (.pc x) (by simp))
    exact fine_one (PartialPosition.piece_bitboard_ok p k c) (Bitboard.bitand_canonical (hp.kind k))
  | pos_kind_bb p k =>
    have hp : p.Ok := ha (.pos p) (by simp)
    exact fine_one (PartialPosition.piece_kind_bitboard_ok p k) (hp.kind k)
  | pos_last_move p =>
    obtain ⟨o, e, ho⟩ := last_valid (ha (.pos p) (by simp)); exact fine_opt e ho
  | pos_last_compact p => exact fine_ok (sane_opt (last_compact_valid (ha (.pos p) (by simp))))
  | pos_last_compact_c p => exact fine_ok1 (last_compact_valid (ha (.pos p) (by simp)))
  | pos_king p c =>
    have hp : p.Ok := ha (.pos p) (by simp)
    exact fine_opt (PartialPosition.king_position_ok p c) (hp.king c)
  | pos_make_move p m =>
    obtain ⟨q, r, e, hq⟩ := move_total (ha (.pos p) (by simp)) (ha (.mv m) (by simp))
    rw [e]; exact fine_ok1 hq
  | pos_make_compact p c =>
    obtain ⟨m, hm, he⟩ := ha (.cmv c) (by simp)
    obtain ⟨q, r, e, hq⟩ := move_total (ha (.pos p) (by simp)) hm
    rw [PartialPosition.make_compact_of_encodes p hm he, e]; exact fine_ok1 hq
  | pos_to_sfen p w hW => exact fine_wr hW (to_sfen_ok (ha (.pos p) (by simp))) w
  | pos_to_sfen_owned p => exact fine_nil (to_sfen_owned_ok (ha (.pos p) (by simp)))
  | pos_to_sfen_c p m ptr hm =>
    obtain ⟨m', e⟩ := to_sfen_c_total (ha (.pos p) (by simp)) hm; exact fine_nil e
  | position_startpos =>
    obtain ⟨p, e, hp⟩ := startpos_total
    rw [Position.startpos, e]
    exact fine_ok1 ⟨hp, hp, by intro m hm; cases hm⟩
  | position_default =>
    obtain ⟨p, e, hp⟩ := startpos_total
    rw [Position.default, e]
    exact fine_ok1 ⟨hp, hp, by intro m hm; cases hm⟩
  | position_arbitrary p =>
    exact fine_ok1 ⟨ha (.pos p) (by simp), ha (.pos p) (by simp), by intro m hm; cases hm⟩
  | position_inner q => exact fine_ok1 (ha (.position q) (by simp)).2.1
  | position_initial q => exact fine_ok1 (ha (.position q) (by simp)).1
  | position_hand_of q c =>
    exact fine_one (PartialPosition.hand_of_a_player_ok q.inner c)
      ((ha (.position q) (by simp)).2.1.hand c)
  | position_hand_mut q c h =>
    have hq := ha (.position q) (by simp)
    refine fine_one (f := Val.position)
      (by rw [Position.hand_of_a_player_mut_assign, PartialPosition.hand_assign_ok]; rfl) ?_
    exact ⟨hq.1, hq.2.1.setHand c (ha (.hand h) (by simp)), hq.2.2⟩
  | position_hand q x =>
    obtain ⟨k, c, rfl⟩ := Piece.exists_mk' (ha (.pc x) (by simp))
    exact fine_nil ((PartialPosition.hand_ok q.inner k c).trans (Hand.count_ok _ k))
  | position_piece_at q s =>
    obtain ⟨o, e, ho⟩ := piece_at_sane (ha (.position q) (by simp)).2.1 (ha (.sq s) (by simp))
    exact fine_opt e ho
  | position_piece_at_c q s =>
    have hp := (ha (.position q) (by simp)).2.1
    exact fine_one (PartialPosition.PartialPosition_piece_at_ok q.inner (ha (.sq s) (by simp)))
      (opc_sane fun x hx => hp.cells _ x hx)
  | position_piece_set q s x =>
    have hq := ha (.position q) (by simp)
    obtain ⟨q', e, he⟩ := PartialPosition.piece_set_ok hq.2.1 (ha (.sq s) (by simp))
      (o := some x) (by intro y hy; cases hy; exact ha (.pc x) (by simp))
    refine fine_one (f := Val.position) (by rw [Position.piece_set, e]; rfl) ?_
    exact ⟨hq.1, he.ok, hq.2.2⟩
  | position_piece_clear q s =>
    have hq := ha (.position q) (by simp)
    obtain ⟨q', e, he⟩ := PartialPosition.piece_set_ok hq.2.1 (ha (.sq s) (by simp))
      (o := none) (by simp)
    refine fine_one (f := Val.position) (by rw [Position.piece_set, e]; rfl) ?_
    exact ⟨hq.1, he.ok, hq.2.2⟩
  | position_occupied q => exact fine_ok1 (occupied_canonical (ha (.position q) (by simp)).2.1)
  | position_vacant q => exact fine_ok1 (Bitboard.not_canonical _)
  | position_player_bb q c =>
    exact fine_one (PartialPosition.player_bitboard_ok q.inner c)
      ((ha (.position q) (by simp)).2.1.player c)
  | position_piece_bb q x =>
    have hp := (ha (.position q) (by simp)).2.1
    obtain ⟨k, c, rfl⟩ := Piece.exists_mk' (ha (.pc x) (by simp))
    exact fine_one (PartialPosition.piece_bitboard_ok q.inner k c)
      (Bitboard.bitand_canonical (hp.kind k))
  | position_last_move q =>
    obtain ⟨o, e, ho⟩ := last_valid (ha (.position q) (by simp)).2.1; exact fine_opt e ho
  | position_last_compact q =>
    exact fine_ok (sane_opt (last_compact_valid (ha (.position q) (by simp)).2.1))
  | position_last_compact_c q => exact fine_ok1 (last_compact_valid (ha (.position q) (by simp)).2.1)
  | position_moves q =>
    refine fine_ok ?_
    intro v hv; obtain ⟨m, hm, rfl⟩ := List.mem_map.1 hv
    exact (ha (.position q) (by simp)).2.2 m hm
  | position_make_move q m =>
    obtain ⟨q', r, e, hq⟩ := position_move_total (ha (.position q) (by simp)) (ha (.mv m) (by simp))
    rw [e]; exact fine_ok1 hq
  | position_make_compact q c =>
    obtain ⟨m, hm, he⟩ := ha (.cmv c) (by simp)
    obtain ⟨q', r, e, hq⟩ := position_move_total (ha (.position q) (by simp)) hm
    rw [Position.make_compact_move, CompactMove.toMove_of_encodes hm he, Res.bind_ok, e]
    exact fine_ok1 hq
  | position_to_sfen_owned q =>
    exact fine_nil (to_sfen_owned_ok (ha (.position q) (by simp)).2.1)
  | position_to_sfen_c q m ptr hm =>
    obtain ⟨m', e⟩ := to_sfen_c_total (ha (.position q) (by simp)).2.1 hm; exact fine_nil e
  | pgame_default =>
    obtain ⟨p, e, hp⟩ := startpos_total
    rw [PartialGame.default, e]
    exact fine_ok1 ⟨hp, _, rfl⟩
  | pgame_position g => exact fine_ok1 (ha (.pgame g) (by simp)).1
  | pgame_resolve g r => exact fine_ok1 ⟨(ha (.pgame g) (by simp)).1, _, (C08_game_resolution _).1⟩
  | pgame_unresolve g => exact fine_ok1 ⟨(ha (.pgame g) (by simp)).1, _, (C08_game_resolution _).1⟩
  | pgame_resolution g => obtain ⟨r, e⟩ := (ha (.pgame g) (by simp)).2; exact fine_nil e
  | pgame_resolution_c g => exact fine_ok1 (ha (.pgame g) (by simp)).2
  | game_default =>
    obtain ⟨p, e, hp⟩ := startpos_total
    rw [Game.default, Position.default, e]
    exact fine_ok1 ⟨⟨hp, hp, by intro m hm; cases hm⟩, _, rfl⟩
  | game_position g => exact fine_ok1 (ha (.game g) (by simp)).1
  | game_resolve g r => exact fine_ok1 ⟨(ha (.game g) (by simp)).1, _, (C08_game_resolution _).1⟩
  | game_unresolve g => exact fine_ok1 ⟨(ha (.game g) (by simp)).1, _, (C08_game_resolution _).1⟩
  | game_resolution g => obtain ⟨r, e⟩ := (ha (.game g) (by simp)).2; exact fine_nil e
  | game_resolution_c g => exact fine_ok1 (ha (.game g) (by simp)).2

theorem execution_sane {vs : List Val} (h : Execution vs) : ∀ v ∈ vs, v.Sane := by
  induction h with
  | start => intro v hv; cases hv
  | call _ hc hargs he ih =>
    obtain ⟨vs', e, hs⟩ := call_fine hc fun a ha => ih a (hargs a ha)
    rw [he] at e; cases e
    intro v hv
    rcases List.mem_append.1 hv with h | h
    · exact ih v h
    · exact hs v h

/-- C48: however a client has obtained its values, every call that respects the documented
contracts of the `unsafe` functions returns: no panic and no undefined behaviour, in debug and
release builds. -/
theorem C48_no_ub {vs : List Val} (h : Execution vs) {args : List Val} {act : Res (List Val)}
    (hc : ApiCall args act) (hargs : ∀ a ∈ args, a ∈ vs) : ∃ new, act = .ok new := by
  obtain ⟨new, e, _⟩ := call_fine hc fun a ha => execution_sane h a (hargs a ha)
  exact ⟨new, e⟩

/-- C48: the values clients get satisfy the documented validity conditions of their types. -/
theorem C48_valid {vs : List Val} (h : Execution vs) :
    (∀ s, .sq s ∈ vs → s.Valid) ∧ (∀ p, .pc p ∈ vs → p.Valid) ∧ (∀ h, .hand h ∈ vs → h.Valid) ∧
    (∀ m, .mv m ∈ vs → m.Valid) ∧ (∀ c, .cmv c ∈ vs → c.Valid) ∧
    (∀ b, .bb b ∈ vs → b.Canonical) ∧ (∀ b, .bsb b ∈ vs → b.swap_bytes.Canonical) :=
  have hs := execution_sane h
  ⟨fun s h => hs (.sq s) h, fun p h => hs (.pc p) h, fun x h => hs (.hand x) h,
   fun m h => hs (.mv m) h, fun c h => hs (.cmv c) h, fun b h => hs (.bb b) h,
   fun b h => hs (.bsb b) h⟩

/-- Non-vacuity: a program sets up the starting position, plays 7g7f and asks for the last
move; it has then got hold of a move that can be played further. -/
example : ∃ vs p q m, Execution vs ∧ .pos p ∈ vs ∧ .pos q ∈ vs ∧ .mv m ∈ vs ∧
    PartialPosition.startpos = .ok p ∧ p.make_move m = .ok (q, some ()) ∧
    ApiCall [.pos q, .mv m] (do let (p, _) ← q.make_move m; return [.pos p]) := by
  obtain ⟨p, e, hp⟩ := startpos_total
  have e7g : Square.from_u8 61 = some ⟨61⟩ := by decide
  have e7f : Square.from_u8 60 = some ⟨60⟩ := by decide
  have hm : Move.Valid (.Normal ⟨61⟩ ⟨60⟩ false) := by decide
  obtain ⟨q, e', -⟩ : ∃ q, p.make_move (.Normal ⟨61⟩ ⟨60⟩ false) = .ok (q, some ()) ∧ True := by
    rw [PartialPosition.startpos_ok] at e
    rcases PartialPosition.make_move_ok hp hm with ⟨_, q, e1, _⟩ | ⟨hn, _⟩
    · exact ⟨q, e1, trivial⟩
    · exact absurd (Res.ok.inj e ▸ (by
        refine ⟨.Pawn, ?_⟩; decide +kernel)) hn
  have x1 := Execution.start.call .pos_startpos (by simp) (by rw [e]; rfl)
  have x2 := x1.call (.square_from_u8 61) (by simp) rfl
  have x3 := x2.call (.square_from_u8 60) (by simp) rfl
  rw [e7g, e7f] at x3
  have x4 := x3.call (.move_normal ⟨61⟩ ⟨60⟩ false) (by simp [Val.opt]) rfl
  have x5 := x4.call (.pos_make_move p (.Normal ⟨61⟩ ⟨60⟩ false)) (by simp [Val.opt])
    (by rw [e']; rfl)
  exact ⟨_, p, q, _, x5, by simp, by simp, by simp, e, e', .pos_make_move q _⟩

omit P in
private theorem stray_pop (w : PtrWidth) :
    @Bitboard.pop ⟨⟨true, w⟩⟩ ⟨1 <<< 63, 1⟩ = .panic := by cases w <;> decide +kernel

/-- C48 fails for the documented range `0..=9` of `shift_right`: `single(8a)`, shifted right by
0 and popped, panics in debug builds. -/
theorem C48_refuted_shift_right (hd : Profile.debug = true) : ∃ vs b b', Execution vs ∧ .bb b ∈ vs ∧
    b.shift_right 0 = .ok b' ∧ b'.pop = .panic := by
  have e : Bitboard.single ⟨64⟩ = .ok ⟨0, 1⟩ := (Bitboard.single_ok (by decide)).trans (by decide)
  have x1 := Execution.start.call (.square_from_u8_unchecked 64 (by decide)) (by simp)
    (by rw [Square.from_u8_unchecked_ok (by decide)]; rfl)
  have x2 := x1.call (.bb_single ⟨64⟩) (by simp) (by rw [e]; rfl)
  refine ⟨_, ⟨0, 1⟩, ⟨1 <<< 63, 1⟩, x2, by simp,
    (Bitboard.shift_right_ok _ (k := 0) (by decide)).trans (by decide), ?_⟩
  obtain ⟨d, w⟩ := P
  cases hd
  exact stray_pop w

/-- The premises on the `unsafe` conversions are exact: everything else is undefined
behaviour. -/
theorem C48_contracts_exact (v : U8) :
    (Square.from_u8_unchecked v = .ub ↔ ¬ (1 ≤ v.toNat ∧ v.toNat ≤ 81)) ∧
    (PieceKind.from_u8_unchecked v = .ub ↔ ¬ (1 ≤ v.toNat ∧ v.toNat ≤ 14)) ∧
    (GameResolution.from_u8_unchecked v = .ub ↔ ¬ (1 ≤ v.toNat ∧ v.toNat ≤ 5)) ∧
    (IllegalMoveKind.from_u8_unchecked v = .ub ↔ ¬ (1 ≤ v.toNat ∧ v.toNat ≤ 7)) := by
  revert v; exact forall_u8 (by decide +kernel)

end ShogiCore
