import Verif.Spec.Text
import Verif.Lemmas.Square
import Verif.Lemmas.Hand

namespace ShogiCore

variable {W : Type} [Write W]

instance {W : Type} : LawfulMonad (FmtM W) := LawfulMonad.mk'
  (id_map := by
    intro α x; funext w
    show FmtM.bind x _ w = x w
    unfold FmtM.bind; cases x w with
    | ok p => rcases p with ⟨w', _ | a⟩ <;> rfl
    | panic => rfl
    | ub => rfl)
  (pure_bind := by intros; rfl)
  (bind_assoc := by
    intro α β γ x f g; funext w
    show FmtM.bind (FmtM.bind x f) g w = FmtM.bind x (fun a => FmtM.bind (f a) g) w
    unfold FmtM.bind; cases x w with
    | ok p => rcases p with ⟨w', _ | a⟩ <;> rfl
    | panic => rfl
    | ub => rfl)

omit [Write W] in
@[simp] theorem FmtM.lift_ok {α : Type} (a : α) : (FmtM.lift (.ok a) : FmtM W α) = pure a := rfl

/-- `writeAll` as a formatter. -/
def wr (cs : List (List U8)) : FmtM W Unit := writeAll cs

@[simp] theorem wr_nil : (wr [] : FmtM W Unit) = pure () := rfl

theorem write_str_eq (c : List U8) : (write_str c : FmtM W Unit) = wr [c] := by
  funext w; unfold write_str wr writeAll
  cases Write.write_str w c with
  | ok p => rcases p with ⟨w', _ | _⟩ <;> rfl
  | panic => rfl
  | ub => rfl

@[simp] theorem wr_bind (a b : List (List U8)) :
    (do wr a; wr b : FmtM W Unit) = wr (a ++ b) := by
  funext w
  show FmtM.bind (wr a) (fun _ => wr b) w = _
  unfold FmtM.bind wr
  induction a generalizing w with
  | nil => rfl
  | cons c cs ih =>
    simp only [writeAll, List.cons_append]
    cases Write.write_str w c with
    | ok p => rcases p with ⟨w', _ | _⟩ <;> simp [ih]
    | panic => rfl
    | ub => rfl

theorem write_ascii_byte_ok {b : U8} (h : b.toNat < 128) :
    (write_ascii_byte b : FmtM W Unit) = wr [[b]] := by
  unfold write_ascii_byte
  rw [if_neg (Nat.not_le.2 h)]
  exact write_str_eq _

theorem writeAll_string (cs : List (List U8)) (s : List U8) :
    writeAll cs s = .ok (s ++ cs.flatten, some ()) := by
  induction cs generalizing s with
  | nil => simp [writeAll]
  | cons c cs ih => simp [writeAll, Write.write_str, ih]

variable [P : Profile]

theorem to_usi_owned_wr {f : FmtM (List U8) Unit} {cs : List (List U8)} (h : f = wr cs) :
    to_usi_owned f = .ok cs.flatten := by
  subst h
  unfold to_usi_owned wr
  rw [writeAll_string]; simp

omit P in
@[simp] theorem flatten_singly (l : List U8) : (singly l).flatten = l := by
  unfold singly; induction l <;> simp_all

/-! ### Squares, kinds, pieces, colours -/

omit P in
private theorem square_bytes_table : ∀ d : Build, ∀ i < 81,
    (do @cadd ⟨d⟩ 8 (asciiByte '0') (← @Square.file ⟨d⟩ (Square.ofIdx i)) : Res U8) =
      .ok (BitVec.ofNat 8 (49 + i / 9)) ∧
    (do @csub ⟨d⟩ 8 (← @cadd ⟨d⟩ 8 (asciiByte 'a') (← @Square.rank ⟨d⟩ (Square.ofIdx i))) 1 : Res U8) =
      .ok (BitVec.ofNat 8 (97 + i % 9)) := by decide +kernel

theorem square_to_usi {s : Square} (h : s.Valid) :
    (s.to_usi : FmtM W Unit) = wr (singly (squareText s)) := by
  have hi := Square.idx0_lt h
  have t := profile_ind (motive := fun P =>
    (do @cadd P 8 (asciiByte '0') (← @Square.file P (Square.ofIdx s.idx0)) : Res U8) =
      .ok (BitVec.ofNat 8 (49 + s.idx0 / 9)) ∧
    (do @csub P 8 (← @cadd P 8 (asciiByte 'a') (← @Square.rank P (Square.ofIdx s.idx0))) 1 : Res U8) =
      .ok (BitVec.ofNat 8 (97 + s.idx0 % 9))) (square_bytes_table · s.idx0 hi) P
  rw [Square.ofIdx_idx0 h] at t
  unfold Square.to_usi
  rw [t.1, t.2]
  simp only [FmtM.lift_ok, pure_bind]
  rw [write_ascii_byte_ok (by simp only [BitVec.toNat_ofNat]; omega),
    write_ascii_byte_ok (by simp only [BitVec.toNat_ofNat]; omega), wr_bind]
  rfl

omit P in
private theorem kind_pro_table : ∀ d : Build, ∀ k : PieceKind,
    PieceKind.ProPawn.toU8.toNat ≤ k.toU8.toNat →
    (do
      let index ← @csub ⟨d⟩ d.ptr.bits (cast d.ptr.bits k.toU8) (cast d.ptr.bits PieceKind.ProPawn.toU8)
      @debug_assert ⟨d⟩ (.ok (decide (index.toNat < 12)))
      let lo ← @cmul ⟨d⟩ d.ptr.bits 2 index
      let hi ← @cadd ⟨d⟩ d.ptr.bits lo 2
      PieceKind.sliceUnchecked (ascii "+P+L+N+S+B+R") lo.toNat hi.toNat : Res (List U8)) =
      .ok (kindText k) := by decide +kernel

omit P in
private theorem kind_un_table : ∀ d : Build, ∀ k : PieceKind,
    ¬ PieceKind.ProPawn.toU8.toNat ≤ k.toU8.toNat →
    ∃ b : Fin 128, (do
      @debug_assert ⟨d⟩ (.ok (decide (k.toU8.toNat ≤ PieceKind.King.toU8.toNat)))
      let i ← @csub ⟨d⟩ d.ptr.bits (cast d.ptr.bits k.toU8) 1
      PieceKind.byteUnchecked (ascii "PLNSGBRK") i.toNat : Res U8) = .ok (BitVec.ofNat 8 b) ∧
      kindText k = [BitVec.ofNat 8 b] := by decide +kernel

omit P [Write W] in
theorem FmtM.lift_bind {α β : Type} (x : Res α) (f : α → Res β) :
    (FmtM.lift (x >>= f) : FmtM W β) = FmtM.lift x >>= fun a => FmtM.lift (f a) := by
  funext w
  cases x <;> rfl

theorem kind_to_usi (k : PieceKind) : (k.to_usi : FmtM W Unit) = wr [kindText k] := by
  unfold PieceKind.to_usi
  split
  · rename_i h
    have t := profile_ind (motive := fun P => (do
      let index ← @csub P P.build.ptr.bits (cast P.build.ptr.bits k.toU8) (cast P.build.ptr.bits PieceKind.ProPawn.toU8)
      @debug_assert P (.ok (decide (index.toNat < 12)))
      let lo ← @cmul P P.build.ptr.bits 2 index
      let hi ← @cadd P P.build.ptr.bits lo 2
      PieceKind.sliceUnchecked (ascii "+P+L+N+S+B+R") lo.toNat hi.toNat : Res (List U8)) =
      .ok (kindText k)) (kind_pro_table · k h) P
    have := congrArg (fun x => (FmtM.lift x >>= write_str : FmtM W Unit)) t
    simp only [FmtM.lift_bind, FmtM.lift_ok, pure_bind, bind_assoc] at this
    rw [this, write_str_eq]
  · rename_i h
    have t := profile_ind (motive := fun P => ∃ b : Fin 128, (do
      @debug_assert P (.ok (decide (k.toU8.toNat ≤ PieceKind.King.toU8.toNat)))
      let i ← @csub P P.build.ptr.bits (cast P.build.ptr.bits k.toU8) 1
      PieceKind.byteUnchecked (ascii "PLNSGBRK") i.toNat : Res U8) = .ok (BitVec.ofNat 8 b) ∧
      kindText k = [BitVec.ofNat 8 b]) (kind_un_table · k h) P
    obtain ⟨b, t, e⟩ := t
    have := congrArg (fun x => (FmtM.lift x >>= write_ascii_byte : FmtM W Unit)) t
    simp only [FmtM.lift_bind, FmtM.lift_ok, pure_bind, bind_assoc] at this
    rw [this, write_ascii_byte_ok (by simp only [BitVec.toNat_ofNat]; omega), e]

omit P in
private theorem piece_pro_table : ∀ d : Build, ∀ k : PieceKind, ∀ c : Color,
    PieceKind.ProPawn.toU8.toNat ≤ k.toU8.toNat →
    (do
      let s ← @cadd ⟨d⟩ d.ptr.bits (match c with | .Black => 0 | .White => 6) (cast d.ptr.bits k.toU8)
      let index ← @csub ⟨d⟩ d.ptr.bits s (cast d.ptr.bits PieceKind.ProPawn.toU8)
      @debug_assert ⟨d⟩ (.ok (decide (index.toNat < 12)))
      let lo ← @cmul ⟨d⟩ d.ptr.bits 2 index
      let hi ← @cadd ⟨d⟩ d.ptr.bits lo 2
      PieceKind.sliceUnchecked (ascii "+P+L+N+S+B+R+p+l+n+s+b+r") lo.toNat hi.toNat : Res (List U8)) =
      .ok (pieceText k c) := by decide +kernel

omit P in
private theorem piece_un_table : ∀ d : Build, ∀ k : PieceKind, ∀ c : Color,
    ¬ PieceKind.ProPawn.toU8.toNat ≤ k.toU8.toNat →
    ∃ b : Fin 128, (do
      @debug_assert ⟨d⟩ (.ok (decide (k.toU8.toNat ≤ PieceKind.King.toU8.toNat)))
      let s ← @cadd ⟨d⟩ d.ptr.bits (match c with | .Black => 0 | .White => 8) (cast d.ptr.bits k.toU8)
      let i ← @csub ⟨d⟩ d.ptr.bits s 1
      PieceKind.byteUnchecked (ascii "PLNSGBRKplnsgbrk") i.toNat : Res U8) = .ok (BitVec.ofNat 8 b) ∧
      pieceText k c = [BitVec.ofNat 8 b] := by decide +kernel

theorem piece_to_usi (k : PieceKind) (c : Color) :
    ((Piece.mk' k c).to_usi : FmtM W Unit) = wr [pieceText k c] := by
  unfold Piece.to_usi
  simp only [Piece.to_parts_mk', FmtM.lift_ok, pure_bind]
  split
  · rename_i h
    have t := profile_ind (motive := fun P => (do
      let s ← @cadd P P.build.ptr.bits (match c with | .Black => 0 | .White => 6) (cast P.build.ptr.bits k.toU8)
      let index ← @csub P P.build.ptr.bits s (cast P.build.ptr.bits PieceKind.ProPawn.toU8)
      @debug_assert P (.ok (decide (index.toNat < 12)))
      let lo ← @cmul P P.build.ptr.bits 2 index
      let hi ← @cadd P P.build.ptr.bits lo 2
      PieceKind.sliceUnchecked (ascii "+P+L+N+S+B+R+p+l+n+s+b+r") lo.toNat hi.toNat : Res (List U8)) =
      .ok (pieceText k c)) (piece_pro_table · k c h) P
    have := congrArg (fun x => (FmtM.lift x >>= write_str : FmtM W Unit)) t
    simp only [FmtM.lift_bind, FmtM.lift_ok, pure_bind, bind_assoc] at this
    exact this.trans (write_str_eq _)
  · rename_i h
    have t := profile_ind (motive := fun P => ∃ b : Fin 128, (do
      @debug_assert P (.ok (decide (k.toU8.toNat ≤ PieceKind.King.toU8.toNat)))
      let s ← @cadd P P.build.ptr.bits (match c with | .Black => 0 | .White => 8) (cast P.build.ptr.bits k.toU8)
      let i ← @csub P P.build.ptr.bits s 1
      PieceKind.byteUnchecked (ascii "PLNSGBRKplnsgbrk") i.toNat : Res U8) = .ok (BitVec.ofNat 8 b) ∧
      pieceText k c = [BitVec.ofNat 8 b]) (piece_un_table · k c h) P
    obtain ⟨b, t, e⟩ := t
    have := congrArg (fun x => (FmtM.lift x >>= write_ascii_byte : FmtM W Unit)) t
    simp only [FmtM.lift_bind, FmtM.lift_ok, pure_bind, bind_assoc] at this
    refine this.trans ?_
    rw [write_ascii_byte_ok (by simp only [BitVec.toNat_ofNat]; omega), e]

omit P in
theorem color_to_usi (c : Color) : (c.to_usi : FmtM W Unit) = wr [colorText c] := by
  unfold Color.to_usi; rw [write_str_eq]; cases c <;> rfl

/-! ### Decimals -/

omit P in
theorem decimal_lt {n : Nat} (h : n < 10) : decimal n = [BitVec.ofNat 8 (48 + n)] := by
  rw [decimal, if_pos h]

omit P in
theorem decimal_ge {n : Nat} (h : 10 ≤ n) :
    decimal n = decimal (n / 10) ++ [BitVec.ofNat 8 (48 + n % 10)] := by
  rw [decimal, if_neg (by omega)]

private theorem digit_ok {b : U8} (h : b.toNat < 10) :
    (do write_ascii_byte (← FmtM.lift (cadd b (asciiByte '0'))) : FmtM W Unit) =
      wr [[BitVec.ofNat 8 (48 + b.toNat)]] := by
  have e : (asciiByte '0').toNat = 48 := rfl
  rw [cadd_ok (by rw [e]; omega)]
  simp only [FmtM.lift_ok, pure_bind]
  have e2 : b + asciiByte '0' = BitVec.ofNat 8 (48 + b.toNat) := by
    apply BitVec.eq_of_toNat_eq; rw [BitVec.toNat_add, e, BitVec.toNat_ofNat, Nat.add_comm]
  rw [e2, write_ascii_byte_ok (by simp only [BitVec.toNat_ofNat]; omega)]

private theorem digit_ok' {b : U8} (h : b.toNat < 10) (k : FmtM W Unit) :
    (do write_ascii_byte (← FmtM.lift (cadd b (asciiByte '0'))); k : FmtM W Unit) =
      (do wr [[BitVec.ofNat 8 (48 + b.toNat)]]; k) := by
  rw [← digit_ok h, bind_assoc]

theorem write_u8_ok (v : U8) : (write_u8 v : FmtM W Unit) = wr (singly (decimal v.toNat)) := by
  have hv := v.isLt
  unfold write_u8
  by_cases h9 : v.toNat ≤ 9
  · rw [if_pos h9, digit_ok (by omega), decimal_lt (by omega)]; rfl
  · rw [if_neg h9]
    by_cases h99 : v.toNat ≤ 99
    · rw [if_pos h99]
      have d1 : (v / 10).toNat = v.toNat / 10 := by simp [BitVec.toNat_udiv]
      have d2 : (v % 10).toNat = v.toNat % 10 := by simp [BitVec.toNat_umod]
      simp only []
      rw [digit_ok' (by omega), digit_ok (by omega), wr_bind, d1, d2, decimal_ge (by omega),
        decimal_lt (by omega)]; rfl
    · rw [if_neg h99]
      have d1 : (v / 100).toNat = v.toNat / 100 := by simp [BitVec.toNat_udiv]
      have d2 : (v / 10 % 10).toNat = v.toNat / 10 % 10 := by
        simp [BitVec.toNat_udiv, BitVec.toNat_umod]
      have d3 : (v % 10).toNat = v.toNat % 10 := by simp [BitVec.toNat_umod]
      simp only []
      rw [digit_ok' (by omega), digit_ok' (by omega), digit_ok (by omega), wr_bind, wr_bind,
        d1, d2, d3, decimal_ge (by omega), decimal_ge (by omega), decimal_lt (by omega),
        Nat.div_div_eq_div_mul]; rfl

/-- `k`-digit numeral with leading zeros. -/
private def padded : Nat → Nat → List U8
  | 0, _ => []
  | k + 1, v => BitVec.ofNat 8 (48 + v / 10 ^ k) :: padded k (v % 10 ^ k)

omit P in
private theorem padded_snoc (k v : Nat) (h : v < 10 ^ (k + 1)) :
    padded (k + 1) v = padded k (v / 10) ++ [BitVec.ofNat 8 (48 + v % 10)] := by
  induction k generalizing v with
  | zero => simp [padded]; congr 2; omega
  | succ k ih =>
    rw [padded, ih (v % 10 ^ (k + 1)) (Nat.mod_lt _ (Nat.pow_pos (by omega)))]
    conv => rhs; rw [padded]
    rw [List.cons_append]
    have e1 : v / 10 ^ (k + 1) = v / 10 / 10 ^ k := by
      rw [Nat.div_div_eq_div_mul, Nat.pow_succ, Nat.mul_comm]
    have e2 : v % 10 ^ (k + 1) / 10 = v / 10 % 10 ^ k := by
      rw [Nat.pow_succ, Nat.mul_comm, Nat.mod_mul_right_div_self]
    have e3 : v % 10 ^ (k + 1) % 10 = v % 10 := by
      rw [Nat.pow_succ, Nat.mul_comm]; exact Nat.mod_mul_right_mod _ _ _
    rw [e1, e2, e3]

omit P in
private theorem decimal_padded (k v : Nat) (h : v < 10 ^ (k + 1)) (h0 : 10 ^ k ≤ v) :
    decimal v = padded (k + 1) v := by
  induction k generalizing v with
  | zero =>
    have h : v < 10 := by simpa using h
    rw [decimal_lt h, padded, padded]; simp
  | succ k ih =>
    have hp : 0 < 10 ^ k := Nat.pow_pos (by omega)
    have h10 : 10 ≤ v := by rw [Nat.pow_succ] at h0; omega
    rw [padded_snoc _ _ h, decimal_ge h10, ih]
    · rw [Nat.pow_succ] at h; omega
    · rw [Nat.pow_succ] at h0; omega

/-- The list of bases 10^(k-1), …, 10, 1. -/
private def bases : Nat → List U16
  | 0 => []
  | k + 1 => BitVec.ofNat 16 (10 ^ k) :: bases k

private theorem u16_loop (k : Nat) (hk : k ≤ 5) (v : U16) (h : v.toNat < 10 ^ k) (disp : Bool) :
    (write_u16_loop (bases k) v disp : FmtM W Unit) =
      wr (singly (if disp then padded k v.toNat else
        if v.toNat = 0 then [] else decimal v.toNat)) := by
  induction k generalizing v disp with
  | zero =>
    have : v.toNat = 0 := by simpa using h
    simp [bases, write_u16_loop, padded, this, singly]
  | succ k ih =>
    have hp : 0 < 10 ^ k := Nat.pow_pos (by omega)
    have hle : 10 ^ k ≤ 10 ^ 4 := Nat.pow_le_pow_right (by omega) (by omega)
    have hb : (BitVec.ofNat 16 (10 ^ k)).toNat = 10 ^ k := by
      rw [BitVec.toNat_ofNat]; omega
    have hd : (v / BitVec.ofNat 16 (10 ^ k)).toNat = v.toNat / 10 ^ k := by
      rw [BitVec.toNat_udiv, hb]
    have hdlt : v.toNat / 10 ^ k < 10 := by
      apply Nat.div_lt_of_lt_mul; rw [Nat.pow_succ] at h; omega
    have hmul : v.toNat / 10 ^ k * 10 ^ k ≤ v.toNat := Nat.div_mul_le_self _ _
    have hvl := v.isLt
    have hc : cmul (v / BitVec.ofNat 16 (10 ^ k)) (BitVec.ofNat 16 (10 ^ k)) =
        .ok (v / BitVec.ofNat 16 (10 ^ k) * BitVec.ofNat 16 (10 ^ k)) :=
      cmul_ok (by rw [hd, hb]; omega)
    have hm : (v / BitVec.ofNat 16 (10 ^ k) * BitVec.ofNat 16 (10 ^ k)).toNat =
        v.toNat / 10 ^ k * 10 ^ k := by
      rw [BitVec.toNat_mul, hd, hb, Nat.mod_eq_of_lt (by omega)]
    have hs : csub v (v / BitVec.ofNat 16 (10 ^ k) * BitVec.ofNat 16 (10 ^ k)) =
        .ok (v - v / BitVec.ofNat 16 (10 ^ k) * BitVec.ofNat 16 (10 ^ k)) :=
      csub_ok (by rw [hm]; exact hmul)
    have hsv : (v - v / BitVec.ofNat 16 (10 ^ k) * BitVec.ofNat 16 (10 ^ k)).toNat =
        v.toNat % 10 ^ k := by
      have := Nat.div_add_mod v.toNat (10 ^ k)
      rw [Nat.mul_comm] at this
      rw [BitVec.toNat_sub, hm]; omega
    have hcast : (cast 8 (v / BitVec.ofNat 16 (10 ^ k)) : U8).toNat = v.toNat / 10 ^ k := by
      unfold cast; rw [BitVec.toNat_setWidth, hd]; omega
    have hml : v.toNat % 10 ^ k < 10 ^ k := Nat.mod_lt _ hp
    have hne : (v / BitVec.ofNat 16 (10 ^ k) != 0) = decide (v.toNat / 10 ^ k ≠ 0) := by
      rw [Bool.eq_iff_iff, bne_iff_ne, decide_eq_true_iff, Ne, Ne, ← hd]
      constructor
      · intro h e; exact h (BitVec.eq_of_toNat_eq (by rw [e]; rfl))
      · intro h e; exact h (by rw [e]; rfl)
    rw [bases, write_u16_loop]
    simp only [hc, hs, FmtM.lift_ok, pure_bind]
    rw [hne]
    by_cases hdz : v.toNat / 10 ^ k = 0
    · cases disp with
      | true =>
        rw [if_pos (by simp)]
        rw [digit_ok' (by rw [hcast]; omega), ih (by omega) _ (by rw [hsv]; exact hml), wr_bind,
          hcast, hsv]
        rfl
      | false =>
        rw [if_neg (by simp [hdz]), ih (by omega) _ (by rw [hsv]; exact hml), hsv]
        have : v.toNat < 10 ^ k := by
          rcases Nat.div_eq_zero_iff.1 hdz with h | h <;> omega
        rw [Nat.mod_eq_of_lt this]; simp
    · rw [if_pos (by simp [hdz]), digit_ok' (by rw [hcast]; omega),
        ih (by omega) _ (by rw [hsv]; exact hml), wr_bind, hcast, hsv]
      have hge : 10 ^ k ≤ v.toNat := by
        apply Nat.le_of_not_lt; intro hlt; exact hdz (Nat.div_eq_of_lt hlt)
      cases disp with
      | true => rfl
      | false =>
        rw [decimal_padded k v.toNat h hge]
        have : v.toNat ≠ 0 := by omega
        simp only [Bool.false_eq_true, if_false, this]
        rfl

theorem write_u16_ok (v : U16) : (write_u16 v : FmtM W Unit) = wr (singly (decimal v.toNat)) := by
  unfold write_u16
  by_cases h0 : v = 0
  · rw [if_pos h0]; subst h0
    rw [write_ascii_byte_ok (by decide)]
    simp only [BitVec.ofNat_eq_ofNat, BitVec.toNat_ofNat, Nat.zero_mod]
    rw [decimal_lt (by omega)]; rfl
  · rw [if_neg h0]
    have hv := v.isLt
    have : v.toNat ≠ 0 := fun e => h0 (BitVec.eq_of_toNat_eq e)
    have hb : ([1, 10, 100, 1000, 10000] : List U16).reverse = bases 5 := by decide
    rw [hb, u16_loop 5 (by omega) v (by omega)]
    simp [this]

/-! ### Hands -/

omit P in
theorem kindOfCell_idx0 (j : Nat) (h : j < 7) : (kindOfCell j).idx0 = j := by
  revert j; decide

omit P in
theorem kindOfCell_inHand (j : Nat) (h : j < 7) : (kindOfCell j).InHand := by
  revert j; decide

private theorem usi_loop_ok (h : Hand) (c : Color) (symbols : List U8)
    (hs : ∀ j < 7, ∃ b : U8, PieceKind.byteUnchecked symbols j = .ok b ∧ b.toNat < 128 ∧
      pieceText (kindOfCell j) c = [b]) (l : List Nat) (hl : ∀ j ∈ l, j < 7) :
    (Hand.usi_loop h symbols l : FmtM W Unit) =
      wr (singly (l.flatMap fun j =>
        countedText (h.cells[j]?.getD 0).toNat (pieceText (kindOfCell j) c))) := by
  induction l with
  | nil => rfl
  | cons j l ih =>
    have hj : j < 7 := hl j (by simp)
    obtain ⟨b, h1, h2, h3⟩ := hs j hj
    have ih := ih (fun i hi => hl i (by simp [hi]))
    rw [Hand.usi_loop, getUnchecked_ok (by omega)]
    simp only [FmtM.lift_ok, pure_bind, h1, List.flatMap_cons]
    rw [ih, write_ascii_byte_ok h2, write_u8_ok]
    have e : (h.cells[j]?.getD 0) = h.cells[j] := by
      rw [Vector.getElem?_eq_getElem (by omega)]; rfl
    rw [e]
    generalize (h.cells[j]).toNat = n
    rw [h3]
    unfold countedText singly
    rw [List.map_append]
    by_cases h0 : n = 0
    · subst h0; simp
    · by_cases h1 : n = 1
      · subst h1; simp
      · have : 2 ≤ n := by omega
        simp only [this, h0, Nat.pos_of_ne_zero h0, if_true, if_false, List.map_append,
          List.append_assoc, wr_bind]; rfl

theorem hand_to_usi (hs : Vector Hand 2) :
    (Hand.to_usi2 hs : FmtM W Unit) = wr (singly (handsText hs[0] hs[1])) := by
  unfold Hand.to_usi2 handsText
  have e : (hs[0].eq Hand.new && hs[1].eq Hand.new) =
      decide (hs[0] = Hand.new ∧ hs[1] = Hand.new) := by
    rw [Bool.eq_iff_iff, Bool.and_eq_true, Hand.eq_iff, Hand.eq_iff, decide_eq_true_iff]
  rw [e]
  by_cases h : hs[0] = Hand.new ∧ hs[1] = Hand.new
  · rw [if_pos (by simpa using h), if_pos h, write_str_eq]; rfl
  · rw [if_neg (by simpa using h), if_neg h,
      usi_loop_ok hs[0] .Black _ (by decide +kernel) _ (by decide),
      usi_loop_ok hs[1] .White _ (by decide +kernel) _ (by decide), wr_bind]
    unfold singly; rw [← List.map_append]; rfl

/-! ### Moves -/

omit P in
@[simp] theorem kindOfPiece_mk' (k : PieceKind) (c : Color) : kindOfPiece (Piece.mk' k c) = k := by
  revert k c; decide +kernel

theorem move_to_usi {m : Move} (h : m.Valid) : (m.to_usi : FmtM W Unit) = wr (moveChunks m) := by
  cases m with
  | Normal s t pr =>
    obtain ⟨hs, ht⟩ := h
    unfold Move.to_usi
    simp only [square_to_usi hs, square_to_usi ht]
    cases pr with
    | true =>
      simp only [if_true]
      rw [write_ascii_byte_ok (by decide), wr_bind, wr_bind]
      rfl
    | false =>
      simp only [Bool.false_eq_true, if_false]
      rw [← wr_nil, wr_bind, wr_bind]
      rfl
  | Drop p t =>
    obtain ⟨hp, ht⟩ := h
    obtain ⟨k, c, rfl⟩ := Piece.exists_mk' hp
    unfold Move.to_usi
    simp only [Piece.piece_kind_mk', FmtM.lift_ok, pure_bind, square_to_usi ht, kind_to_usi]
    rw [write_ascii_byte_ok (by decide), wr_bind, wr_bind]
    rw [moveChunks, kindOfPiece_mk']; rfl

end ShogiCore
