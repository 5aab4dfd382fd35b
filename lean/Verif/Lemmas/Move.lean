import Verif.Lemmas.Square
import Verif.Lemmas.Piece

namespace ShogiCore

theorem u16_bit (v : U16) (i : Nat) (hi : i < 16) :
    ((v &&& BitVec.twoPow 16 i) != 0#16) = decide (v.toNat / 2 ^ i % 2 = 1) := by
  rw [BitVec.and_twoPow, ← Nat.testBit_eq_decide_div_mod_eq, ← BitVec.testBit_toNat]
  split
  · rename_i h; rw [h, bne_iff_ne]
    intro e
    have := congrArg BitVec.toNat e
    rw [BitVec.toNat_twoPow] at this
    have h2 : 2 ^ i < 2 ^ 16 := Nat.pow_lt_pow_right (by omega) hi
    have h3 : 0 < 2 ^ i := Nat.pow_pos (by omega)
    rw [Nat.mod_eq_of_lt h2] at this
    simp at this
  · rename_i h; simp at h; simp [h]

theorem u16_and127 (v : U16) : (v &&& 127).toNat = v.toNat % 128 := by
  rw [BitVec.toNat_and]; exact Nat.and_two_pow_sub_one_eq_mod v.toNat 7

theorem u16_shr8 (v : U16) : (v >>> 8).toNat = v.toNat / 256 := by
  rw [BitVec.toNat_ushiftRight, Nat.shiftRight_eq_div_pow]

namespace CompactMove

theorem ext' {s t : CompactMove} (h : s.val = t.val) : s = t := by cases s; cases t; simp_all

theorem encodes_inj {c d : CompactMove} {m : Move} (h : c.encodes m) (h' : d.encodes m) : c = d := by
  apply ext'; apply BitVec.eq_of_toNat_eq
  cases m <;> simp only [encodes] at h h' <;> omega

theorem is_drop_eq (c : CompactMove) : c.is_drop = decide (c.val.toNat / 128 % 2 = 1) :=
  u16_bit c.val 7 (by omega)

theorem is_promoting_eq (c : CompactMove) : c.is_promoting = decide (c.val.toNat / 32768 % 2 = 1) :=
  u16_bit c.val 15 (by omega)

theorem is_drop_of_encodes {c : CompactMove} {m : Move} (hm : m.Valid) (h : c.encodes m) :
    c.is_drop = m.is_drop := by
  rw [is_drop_eq]
  cases m with
  | Normal s t pr =>
    simp only [encodes, Move.Valid, Square.Valid] at h hm
    simp only [Move.is_drop, decide_eq_false_iff_not]
    split at h <;> omega
  | Drop p t =>
    simp only [encodes, Move.Valid, Square.Valid] at h hm
    simp only [Move.is_drop, decide_eq_true_eq]
    omega

theorem is_promoting_of_encodes {c : CompactMove} {m : Move} (hm : m.Valid) (h : c.encodes m) :
    c.is_promoting = m.is_promoting := by
  rw [is_promoting_eq]
  cases m with
  | Normal s t pr =>
    simp only [encodes, Move.Valid, Square.Valid] at h hm
    cases pr <;> simp only [Move.is_promoting] <;> simp at h ⊢ <;> omega
  | Drop p t =>
    simp only [encodes, Move.Valid, Square.Valid, Piece.Valid] at h hm
    simp only [Move.is_promoting, decide_eq_false_iff_not]
    omega

private theorem cast8 {v : U16} {s : Square} (h : v.toNat = s.val.toNat) : (cast 8 v : U8) = s.val := by
  apply BitVec.eq_of_toNat_eq
  have := s.val.isLt
  simp only [cast, BitVec.toNat_setWidth]; omega

theorem to_of_encodes {c : CompactMove} {m : Move} (hm : m.Valid) (h : c.encodes m) :
    c.to = .ok m.to := by
  have key : ∀ t : Square, t.Valid → c.val.toNat % 128 = t.val.toNat → c.to = .ok t := by
    intro t ht e
    unfold CompactMove.to
    rw [cast8 (s := t) (by rw [u16_and127]; exact e), Square.from_u8_unchecked_ok ht]
  cases m with
  | Normal s t pr =>
    apply key _ hm.2
    simp only [encodes, Move.Valid, Square.Valid] at h hm ⊢
    split at h <;> omega
  | Drop p t =>
    apply key _ hm.2
    simp only [encodes, Move.Valid, Square.Valid] at h hm ⊢
    omega

private theorem srcByte {c : CompactMove} {s t : Square} {pr : Bool} (hm : (Move.Normal s t pr).Valid)
    (h : c.encodes (.Normal s t pr)) : (cast 8 ((c.val >>> 8) &&& 127) : U8) = s.val := by
  apply cast8
  rw [u16_and127, u16_shr8]
  simp only [encodes, Move.Valid, Square.Valid] at h hm
  split at h <;> omega

theorem src_of_encodes {c : CompactMove} {m : Move} (hm : m.Valid) (h : c.encodes m) :
    c.src = .ok m.src := by
  unfold CompactMove.src
  rw [is_drop_of_encodes hm h]
  cases m with
  | Normal s t pr =>
    simp only [Move.is_drop, Bool.false_eq_true, if_false, Move.src]
    rw [srcByte hm h, Square.from_u8_unchecked_ok hm.1]; rfl
  | Drop p t => simp [Move.is_drop, Move.src]

theorem toMove_of_encodes {c : CompactMove} {m : Move} (hm : m.Valid) (h : c.encodes m) :
    c.toMove = .ok m := by
  unfold CompactMove.toMove
  rw [to_of_encodes hm h, is_drop_of_encodes hm h]
  have hp := is_promoting_of_encodes hm h
  unfold is_promoting at hp
  cases m with
  | Normal s t pr =>
    simp only [Move.is_drop, Bool.false_eq_true, if_false, Move.to, Res.bind_ok]
    rw [srcByte hm h, Square.from_u8_unchecked_ok hm.1, hp]
    cases pr <;> rfl
  | Drop p t =>
    simp only [Move.is_drop, if_true, Move.to, Res.bind_ok]
    have e : (cast 8 (c.val >>> 8) : U8) = p.val := by
      apply BitVec.eq_of_toNat_eq
      have := u16_shr8 c.val
      have := p.val.isLt
      simp only [encodes, Move.Valid, Square.Valid, Piece.Valid] at h hm
      simp only [cast, BitVec.toNat_setWidth]
      omega
    have e0 : p.val ≠ 0#8 := by
      intro e
      have := hm.1
      unfold Piece.Valid at this
      rw [e] at this; simp at this
    rw [e, Piece.from_u8_unchecked, nonzero_ok e0]; rfl

private theorem nat_or {a b i : Nat} (hb : b < 2 ^ i) : a * 2 ^ i ||| b = a * 2 ^ i + b := by
  rw [← Nat.shiftLeft_eq, Nat.shiftLeft_add_eq_or_of_lt hb]

private theorem normal_value {s t : Square} (hs : s.Valid) (ht : t.Valid) (pr : Bool) :
    ((boolU16 pr) <<< 15 ||| (cast 16 s.val) <<< 8 ||| cast 16 t.val : U16).toNat =
      (if pr then 32768 else 0) + s.val.toNat * 256 + t.val.toNat := by
  unfold Square.Valid at hs ht
  have e1 : (cast 16 s.val : U16).toNat = s.val.toNat := by
    simp only [cast, BitVec.toNat_setWidth]; omega
  have e2 : (cast 16 t.val : U16).toNat = t.val.toNat := by
    simp only [cast, BitVec.toNat_setWidth]; omega
  have e3 : ((boolU16 pr) <<< 15 : U16).toNat = (if pr then 1 else 0) * 2 ^ 15 := by
    cases pr <;> rfl
  have e4 : ((cast 16 s.val) <<< 8 : U16).toNat = s.val.toNat * 2 ^ 8 := by
    rw [BitVec.toNat_shiftLeft, e1, Nat.shiftLeft_eq]; omega
  rw [BitVec.toNat_or, BitVec.toNat_or, e2, e3, e4, nat_or (by omega)]
  have : ((if pr then 1 else 0) * 2 ^ 15 + s.val.toNat * 2 ^ 8) =
      ((if pr then 1 else 0) * 2 ^ 7 + s.val.toNat) * 2 ^ 8 := by split <;> omega
  rw [this, nat_or (by omega)]
  clear e1 e2 e3 e4 this
  cases pr
  · simp only [Bool.false_eq_true, if_false]; omega
  · simp only [if_true]; omega

private theorem drop_value {p : Piece} {t : Square} (ht : t.Valid) :
    ((cast 16 p.as_u8) <<< 8 ||| 128 ||| cast 16 t.val : U16).toNat =
      p.val.toNat * 256 + 128 + t.val.toNat := by
  unfold Square.Valid at ht
  have e1 : (cast 16 p.as_u8 : U16).toNat = p.val.toNat := by
    simp only [cast, BitVec.toNat_setWidth, Piece.as_u8]; omega
  have e2 : (cast 16 t.val : U16).toNat = t.val.toNat := by
    simp only [cast, BitVec.toNat_setWidth]; omega
  have e4 : ((cast 16 p.as_u8) <<< 8 : U16).toNat = p.val.toNat * 2 ^ 8 := by
    rw [BitVec.toNat_shiftLeft, e1, Nat.shiftLeft_eq]; omega
  have e5 : (128 : U16).toNat = 128 := rfl
  rw [BitVec.toNat_or, BitVec.toNat_or, e2, e4, e5, nat_or (by omega)]
  have : p.val.toNat * 2 ^ 8 + 128 = (p.val.toNat * 2 + 1) * 2 ^ 7 := by omega
  rw [this, nat_or (by omega)]

theorem ne_zero_of_encodes {c : CompactMove} {m : Move} (hm : m.Valid) (h : c.encodes m) :
    c.val ≠ 0#16 := by
  intro e
  cases m <;> simp only [Move.Valid, Square.Valid, encodes, e] at hm h <;> simp at h <;> omega

variable [Profile]

theorem normal_ok {s t : Square} (hs : s.Valid) (ht : t.Valid) (pr : Bool) :
    ∃ c, normal s t pr = .ok c ∧ c.encodes (.Normal s t pr) := by
  unfold normal
  rw [Square.index_ok hs, Square.index_ok ht]
  have hm : (Move.Normal s t pr).Valid := ⟨hs, ht⟩
  have hv := normal_value hs ht pr
  have h0 := ne_zero_of_encodes (c := ⟨_⟩) hm hv
  simp only [Res.bind_ok]
  rw [nonzero_ok h0]
  exact ⟨_, rfl, hv⟩

theorem drop_ok {p : Piece} {t : Square} (hp : p.Valid) (ht : t.Valid) :
    ∃ c, drop p t = .ok c ∧ c.encodes (.Drop p t) := by
  unfold drop
  rw [Square.index_ok ht]
  have hm : (Move.Drop p t).Valid := ⟨hp, ht⟩
  have hv := drop_value (p := p) ht
  have h0 := ne_zero_of_encodes (c := ⟨_⟩) hm hv
  simp only [Res.bind_ok]
  rw [nonzero_ok h0]
  exact ⟨_, rfl, hv⟩

theorem ofMove_ok {m : Move} (hm : m.Valid) : ∃ c, ofMove m = .ok c ∧ c.encodes m := by
  cases m with
  | Normal s t pr =>
    obtain ⟨c, h, e⟩ := normal_ok hm.1 hm.2 pr
    refine ⟨c, ?_, e⟩
    rw [← h]; unfold ofMove normal
    simp only [Square.index_ok hm.1, Square.index_ok hm.2, Res.bind_ok, Res.pure_eq]
  | Drop p t =>
    obtain ⟨c, h, e⟩ := drop_ok hm.1 hm.2
    refine ⟨c, ?_, e⟩
    rw [← h]; unfold ofMove drop
    simp only [Square.index_ok hm.2, Res.bind_ok, Res.pure_eq]

end CompactMove
end ShogiCore
