import Verif.Lemmas.MakeMove

set_option linter.unusedSectionVars false

namespace ShogiCore
namespace PartialPosition

/-- The starting position as a closed value. -/
def sp0 : PartialPosition :=
  match @startpos ⟨⟨true, .w64⟩⟩ with
  | .ok p => p
  | _ => empty

private theorem startpos_table : ∀ d, @startpos ⟨d⟩ = .ok sp0 := by decide +kernel

theorem startpos_ok [P : Profile] : startpos = .ok sp0 :=
  profile_ind (motive := fun P => @startpos P = .ok sp0) (fun d => startpos_table d) P

private theorem sp0_check :
    (∀ i < 81, ∀ c : Color, ((sp0.playerBB c).bit i = true ↔ ∃ k, sp0.cell i = some (Piece.mk' k c))) ∧
    (∀ i < 81, ∀ k : PieceKind,
      ((sp0.kindBB k).bit i = true ↔ ∃ c, sp0.cell i = some (Piece.mk' k c))) ∧
    (∀ i < 81, (sp0.cell i).all (fun x => decide x.Valid) = true) ∧
    (∀ c, (sp0.playerBB c).Canonical) ∧ (∀ k, (sp0.kindBB k).Canonical) ∧
    (∀ c, (sp0.handOf c).Valid) ∧ sp0.last_move.toOption = none ∧
    (∀ c, (sp0.kingOf c).toOption.all (fun s => decide s.Valid) = true) := by decide +kernel

theorem sp0_ok : sp0.Ok := by
  obtain ⟨h1, h2, h3, h4, h5, h6, h7, h8⟩ := sp0_check
  refine ⟨?_, h4, fun c i hi => h1 i hi c, h5, fun k i hi => h2 i hi k, h6, ?_, ?_⟩
  · intro i x e
    by_cases hi : i < 81
    · have := h3 i hi; rw [e] at this; simpa using this
    · simp [cell, hi] at e
  · intro m hm; rw [h7] at hm; cases hm
  · intro c s e; have := h8 c; rw [e] at this; simpa using this

theorem cell_empty (i : Nat) : empty.cell i = none := by
  unfold cell empty; split
  · simp [OptionPiece.ofOption, OptionPiece.toOption]
  · rfl

theorem empty_ok : empty.Ok := by
  have hp : ∀ c, empty.playerBB c = Bitboard.empty := by intro c; simp [playerBB, empty]
  have hk : ∀ c, empty.kindBB c = Bitboard.empty := by intro c; simp [kindBB, empty]
  refine ⟨?_, ?_, ?_, ?_, ?_, ?_, ?_, ?_⟩
  · intro i x e; rw [cell_empty] at e; cases e
  · intro c; rw [hp]; exact Bitboard.empty_canonical
  · intro c i hi; rw [hp, Bitboard.bit_empty, cell_empty]; simp
  · intro c; rw [hk]; exact Bitboard.empty_canonical
  · intro c i hi; rw [hk, Bitboard.bit_empty, cell_empty]; simp
  · intro c; simp only [handOf, empty, Vector.getElem_replicate]; exact Hand.new_valid
  · intro m hm; cases hm
  · intro c s hs; simp [kingOf, empty, OptionSquare.ofOption, OptionSquare.toOption] at hs

variable [P : Profile]

theorem make_compact_of_encodes (p : PartialPosition) {c : CompactMove} {m : Move} (hm : m.Valid)
    (h : c.encodes m) :
    p.make_compact_move c = (do let (q, r) ← p.make_move m; return (q, r.isSome)) := by
  simp only [make_compact_move, CompactMove.toMove_of_encodes hm h, Res.bind_ok]

/-- The invariant holds of everything obtainable through the API. -/
theorem step_ok {p q : PartialPosition} (hp : p.Ok) (h : ApiStep p q) : q.Ok := by
  cases h with
  | make_move hm h =>
    rcases make_move_ok hp hm with ⟨_, q', e, he⟩ | ⟨_, e⟩
    · rw [e] at h; cases h; exact he.ok
    · rw [e] at h; cases h; exact hp
  | make_compact_move hc h =>
    obtain ⟨m, hm, henc⟩ := hc
    rw [make_compact_of_encodes p hm henc] at h
    rcases make_move_ok hp hm with ⟨_, q', e, he⟩ | ⟨_, e⟩
    · rw [e] at h; cases h; exact he.ok
    · rw [e] at h; cases h; exact hp
  | piece_set hs ho h =>
    obtain ⟨q', e, he⟩ := piece_set_ok hp hs ho
    rw [e] at h; cases h; exact he.ok
  | hand hv h => rw [hand_assign_ok] at h; cases h; exact hp.setHand _ hv
  | side => exact hp.update rfl rfl rfl hp.hand hp.last hp.king
  | ply =>
    unfold ply_set; split
    · exact hp
    · exact hp.update rfl rfl rfl hp.hand hp.last hp.king

theorem reach_ok {p : PartialPosition} (h : ApiReach p) : p.Ok := by
  induction h with
  | empty => exact empty_ok
  | startpos h => rw [startpos_ok] at h; exact Res.ok.inj h ▸ sp0_ok
  | step _ h ih => exact step_ok ih h

theorem from_ok {p : PartialPosition} (hp : p.Ok) {l q} (h : Game.From p l q) : q.Ok := by
  induction h with
  | start => exact hp
  | accept _ hm h ih => exact step_ok ih (.make_move hm h)
  | reject _ hm h ih => exact step_ok ih (.make_move hm h)

theorem from_reach {p : PartialPosition} (hp : ApiReach p) {l q} (h : Game.From p l q) :
    ApiReach q := by
  induction h with
  | start => exact hp
  | accept _ hm h ih => exact .step ih (.make_move hm h)
  | reject _ hm h ih => exact .step ih (.make_move hm h)

theorem game_reach {q : PartialPosition} (h : GameReach q) : ApiReach q := by
  obtain ⟨p, l, hp, h⟩ := h; exact from_reach (.startpos hp) h

theorem acceptable_iff {p : PartialPosition} {m : Move} (hm : m.Valid) :
    p.Acceptable m ↔ p.Acc m := by
  cases m with
  | Normal s t pr =>
    simp only [Acceptable, Acc, piece_at_ok p hm.1, piece_at_ok p hm.2, Res.ok.injEq, side_to_move,
      PieceKind.promote_iff]
  | Drop x t =>
    simp only [Acceptable, Acc, piece_at_ok p hm.2, Res.ok.injEq, side_to_move]
    constructor
    · rintro ⟨k, n, rfl, hk, h1, h2, h3⟩
      rw [hand_ok, Hand.count_ok, dif_pos hk] at h2
      cases h2
      refine ⟨k, hk, rfl, h1, fun e => h3 (BitVec.eq_of_toNat_eq e)⟩
    · rintro ⟨k, hk, rfl, h1, h2⟩
      refine ⟨k, _, rfl, hk, h1, by rw [hand_ok, Hand.count_ok, dif_pos hk], ?_⟩
      intro e; exact h2 (by rw [e]; rfl)

end PartialPosition
end ShogiCore
