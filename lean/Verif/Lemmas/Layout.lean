import Verif.Model.Layout
import Verif.Lemmas.SfenBound
import Verif.Props.Memory

/- Bytes of values, and memory with the fields of a struct written into it. -/

namespace ShogiCore

section
variable [T : Target]

/-! ### Encodings -/

omit T in
theorem leBytes_length (k n : Nat) : (leBytes k n).length = k := by
  induction k generalizing n with
  | zero => rfl
  | succ k ih => rw [leBytes, List.length_cons, ih]

omit T in
theorem ofLe_leBytes (k n : Nat) : ofLe (leBytes k n) = n % 256 ^ k := by
  induction k generalizing n with
  | zero => simp [leBytes, ofLe, Nat.mod_one]
  | succ k ih =>
    rw [leBytes, ofLe, ih, BitVec.toNat_ofNat, Nat.pow_succ 256 k, Nat.mul_comm (256 ^ k) 256, Nat.mod_mul]

theorem intBytes_length {w : Nat} (k : Nat) (x : BitVec w) : (intBytes k x).length = k := by
  unfold intBytes
  split
  · rw [List.length_reverse, leBytes_length]
  · exact leBytes_length _ _

theorem intOf_intBytes {w k : Nat} (h : w = 8 * k) (x : BitVec w) : intOf w (intBytes k x) = x := by
  have e : 256 ^ k = 2 ^ w := by rw [h, Nat.pow_mul]
  have hx : x.toNat % 256 ^ k = x.toNat := by rw [e]; exact Nat.mod_eq_of_lt x.isLt
  unfold intOf intBytes
  cases Target.bigEndian <;>
    simp only [Bool.false_eq_true, if_false, if_true, List.reverse_reverse, ofLe_leBytes, hx,
      BitVec.ofNat_toNat, BitVec.setWidth_eq]

omit T in
theorem flatMap_length {α : Type} {f : α → List U8} {w : Nat} (hf : ∀ a, (f a).length = w)
    (l : List α) : (l.flatMap f).length = l.length * w := by
  induction l with
  | nil => simp
  | cons a l ih => rw [List.flatMap_cons, List.length_append, hf, ih, List.length_cons, Nat.succ_mul]; omega

omit T in
theorem arrBytes_length {α : Type} {n : Nat} {f : α → List U8} {w : Nat}
    (hf : ∀ a, (f a).length = w) (v : Vector α n) : (arrBytes f v).length = n * w := by
  rw [arrBytes, flatMap_length hf, Vector.length_toList]

omit T in
theorem flatMap_slice {α : Type} {f : α → List U8} {w : Nat} (hf : ∀ a, (f a).length = w)
    (l : List α) (i : Nat) (h : i < l.length) : ((l.flatMap f).drop (i * w)).take w = f l[i] := by
  induction l generalizing i with
  | nil => simp at h
  | cons a l ih =>
    rw [List.flatMap_cons]
    cases i with
    | zero =>
      rw [Nat.zero_mul, List.drop_zero, List.take_append_of_le_length (by rw [hf]; omega)]
      rw [List.take_of_length_le (by rw [hf]; omega)]; rfl
    | succ i =>
      rw [Nat.succ_mul, List.drop_append, List.drop_eq_nil_of_le (by rw [hf]; omega), hf,
        Nat.add_sub_cancel, List.nil_append, ih i (by simpa using h)]; rfl

omit T in
theorem arrOf_arrBytes {α : Type} {n w : Nat} {f : α → List U8} {g : List U8 → α}
    (hf : ∀ a, (f a).length = w) (hg : ∀ a, g (f a) = a) (v : Vector α n) :
    arrOf n w g (arrBytes f v) = v := by
  ext i hi
  unfold arrOf arrBytes
  rw [Vector.getElem_ofFn, flatMap_slice hf _ i (by rw [Vector.length_toList]; exact hi), hg,
    Vector.getElem_toList]

theorem Bitboard.bytes_length (b : Bitboard) : b.bytes.length = 16 := by
  rw [Bitboard.bytes, List.length_append, intBytes_length, intBytes_length]

theorem Bitboard.ofBytes_bytes (b : Bitboard) : Bitboard.ofBytes b.bytes = b := by
  unfold Bitboard.ofBytes Bitboard.bytes
  rw [List.take_append_of_le_length (by rw [intBytes_length]; omega),
    List.take_of_length_le (by rw [intBytes_length]; omega),
    List.drop_append, List.drop_eq_nil_of_le (by rw [intBytes_length]; omega), intBytes_length,
    Nat.sub_self, List.drop_zero, List.nil_append, intOf_intBytes (k := 8) rfl,
    intOf_intBytes (k := 8) rfl]

omit T in
theorem Hand.bytes_length (h : Hand) : h.bytes.length = 8 := by
  rw [Hand.bytes, Vector.length_toList]

omit T in
theorem leBytes_one (x : U8) : leBytes 1 x.toNat = [x] := by
  simp only [leBytes, BitVec.ofNat_toNat, BitVec.setWidth_eq]

theorem intBytes_one (x : U8) : intBytes 1 x = [x] := by
  unfold intBytes
  rw [leBytes_one]
  split <;> rfl

theorem Hand.ofBytes_bytes (h : Hand) : Hand.ofBytes h.bytes = h := by
  have e : h.bytes = arrBytes (fun x : U8 => intBytes 1 x) h.cells := by
    rw [Hand.bytes, arrBytes]
    simp only [intBytes_one]
    induction h.cells.toList with
    | nil => rfl
    | cons a l ih => rw [List.flatMap_cons, ← ih]; rfl
  rw [Hand.ofBytes, e, arrOf_arrBytes (fun _ => intBytes_length _ _) (fun _ => intOf_intBytes rfl _)]

theorem transmute_side (c : Color) : Color.transmute (intOf 8 (intBytes 1 c.toU8)) = .ok c := by
  rw [intOf_intBytes (k := 1) rfl]
  cases c <;> rfl

/-! ### Reading and writing -/

omit T in
theorem Mem.writeBytes_eq (m : Mem) (p : Nat) (l : List U8) (h : m.Accessible p l.length) :
    m.writeBytes p l = .ok (overlay m p l) := by
  induction l generalizing m p with
  | nil => rfl
  | cons b l ih =>
    have h0 := h 0 (by simp)
    rw [Nat.add_zero] at h0
    rw [Mem.writeBytes, Mem.write_some h0, Res.bind_ok, ih]
    · rfl
    · intro k hk
      show (if p + 1 + k = p then some b else m _) ≠ none
      rw [if_neg (by omega), show p + 1 + k = p + (k + 1) by omega]
      exact h (k + 1) (by simpa using hk)

omit T in
theorem Mem.readBytes_eq (m : Mem) (p : Nat) (l : List U8)
    (h : ∀ k (hk : k < l.length), m (p + k) = some l[k]) : m.readBytes p l.length = .ok l := by
  induction l generalizing p with
  | nil => rfl
  | cons b l ih =>
    have h0 := h 0 (by simp)
    rw [Nat.add_zero] at h0
    rw [List.length_cons, Mem.readBytes, Mem.read_some h0, Res.bind_ok, ih]
    · rfl
    · intro k hk
      rw [show p + 1 + k = p + (k + 1) by omega, h (k + 1) (by simpa using hk)]; rfl

omit T in
theorem Mem.readBytes_congr {m m' : Mem} {p p' n : Nat} (h : ∀ k < n, m (p + k) = m' (p' + k)) :
    m.readBytes p n = m'.readBytes p' n := by
  induction n generalizing p p' with
  | zero => rfl
  | succ n ih =>
    have h0 := h 0 (by omega)
    rw [Nat.add_zero, Nat.add_zero] at h0
    have e : m.read p = m'.read p' := by unfold Mem.read; rw [h0]
    rw [Mem.readBytes, Mem.readBytes, e, ih]
    intro k hk
    rw [show p + 1 + k = p + (k + 1) by omega, show p' + 1 + k = p' + (k + 1) by omega]
    exact h (k + 1) (by omega)

/-- Memory with several byte strings written at offsets from `a`. -/
def overlays (m : Mem) (a : Nat) : List (Nat × List U8) → Mem
  | [] => m
  | f :: fs => overlays (overlay m (a + f.1) f.2) a fs

omit T in
theorem overlays_out {m : Mem} {a x : Nat} {fs : List (Nat × List U8)}
    (h : ∀ f ∈ fs, x < a + f.1 ∨ a + f.1 + f.2.length ≤ x) : overlays m a fs x = m x := by
  induction fs generalizing m with
  | nil => rfl
  | cons f fs ih =>
    rw [overlays, ih (fun g hg => h g (List.mem_cons_of_mem _ hg)),
      overlay_out _ _ _ _ (h f List.mem_cons_self)]

omit T in
theorem overlays_in {m : Mem} {a : Nat} {fs : List (Nat × List U8)}
    (hp : fs.Pairwise fun f g => f.1 + f.2.length ≤ g.1) {f : Nat × List U8} (hf : f ∈ fs) {k : Nat}
    (hk : k < f.2.length) : overlays m a fs (a + f.1 + k) = some f.2[k] := by
  induction fs generalizing m with
  | nil => cases hf
  | cons g fs ih =>
    rw [List.pairwise_cons] at hp
    rcases List.mem_cons.1 hf with rfl | hf
    · rw [overlays, overlays_out, overlay_in _ _ _ _ hk]
      intro g hg
      have := hp.1 g hg
      omega
    · exact ih hp.2 hf

omit T in
theorem overlays_isSome {m : Mem} {a : Nat} {fs : List (Nat × List U8)} {n : Nat}
    (h : ∀ f ∈ fs, f.1 + f.2.length ≤ n) (hm : m.Accessible a n) (x : Nat) :
    overlays m a fs x ≠ none ↔ m x ≠ none := by
  induction fs generalizing m with
  | nil => exact Iff.rfl
  | cons f fs ih =>
    have hf := h f List.mem_cons_self
    have h1 : ∀ x, overlay m (a + f.1) f.2 x ≠ none ↔ m x ≠ none := fun x =>
      overlay_isSome _ _ _ _ (fun i hi => by
        rw [Nat.add_assoc]; exact hm _ (by omega))
    rw [overlays, ih (fun g hg => h g (List.mem_cons_of_mem _ hg)) (fun k hk => (h1 _).2 (hm k hk)), h1]

namespace PartialPosition

omit T in
theorem layout_table : ∀ e w, (fieldOffsets 0 (@fields ⟨e, w⟩)).1 = [0, 2, 4, 20, 104, 136, 360, 362] ∧
    (@PartialPosition.ty ⟨e, w⟩).size = (if w then 368 else 364) ∧
    (@PartialPosition.ty ⟨e, w⟩).align = (if w then 8 else 4) := by
  decide +kernel

theorem offs : (fieldOffsets 0 fields).1 = [0, 2, 4, 20, 104, 136, 360, 362] :=
  (layout_table T.bigEndian T.wideAlign).1

theorem off0 : off 0 = 0 := by rw [off, offs]; rfl
theorem off1 : off 1 = 2 := by rw [off, offs]; rfl
theorem off2 : off 2 = 4 := by rw [off, offs]; rfl
theorem off3 : off 3 = 20 := by rw [off, offs]; rfl
theorem off4 : off 4 = 104 := by rw [off, offs]; rfl
theorem off5 : off 5 = 136 := by rw [off, offs]; rfl
theorem off6 : off 6 = 360 := by rw [off, offs]; rfl
theorem off7 : off 7 = 362 := by rw [off, offs]; rfl

theorem size_ge : 364 ≤ PartialPosition.ty.size := by
  have h := (layout_table T.bigEndian T.wideAlign).2.1
  have : (if T.wideAlign then 368 else 364) = PartialPosition.ty.size := h.symm
  split at this <;> omega

/-- The fields as bytes with their offsets. -/
def fieldBytes (p : PartialPosition) : List (Nat × List U8) :=
  [(0, intBytes 1 p.side.toU8), (2, intBytes 2 p.ply), (4, arrBytes Hand.bytes p.hands),
    (20, arrBytes (fun x => intBytes 1 x.val) p.board), (104, arrBytes Bitboard.bytes p.player_bb),
    (136, arrBytes Bitboard.bytes p.piece_bb), (360, intBytes 2 p.last_move.val),
    (362, arrBytes (fun x => intBytes 1 x.val) p.king_square)]

theorem fieldBytes_lengths (p : PartialPosition) : p.fieldBytes.map (fun f => (f.1, f.2.length)) =
    [(0, 1), (2, 2), (4, 16), (20, 81), (104, 32), (136, 224), (360, 2), (362, 2)] := by
  simp only [fieldBytes, List.map_cons, List.map_nil, intBytes_length,
    arrBytes_length Hand.bytes_length, arrBytes_length Bitboard.bytes_length,
    arrBytes_length (w := 1) (fun _ : OptionPiece => intBytes_length _ _),
    arrBytes_length (w := 1) (fun _ : OptionSquare => intBytes_length _ _)]

theorem fieldBytes_pairwise (p : PartialPosition) :
    p.fieldBytes.Pairwise fun f g => f.1 + f.2.length ≤ g.1 := by
  have h : (p.fieldBytes.map (fun f => (f.1, f.2.length))).Pairwise fun f g => f.1 + f.2 ≤ g.1 := by
    rw [fieldBytes_lengths]; decide
  exact List.pairwise_map.1 h

theorem fieldBytes_end (p : PartialPosition) : ∀ f ∈ p.fieldBytes, f.1 + f.2.length ≤ 364 := by
  intro f hf
  have h : (f.1, f.2.length) ∈ p.fieldBytes.map (fun f => (f.1, f.2.length)) :=
    List.mem_map.2 ⟨f, hf, rfl⟩
  rw [fieldBytes_lengths] at h
  have : ∀ g ∈ [(0, 1), (2, 2), (4, 16), (20, 81), (104, 32), (136, 224), (360, 2), (362, 2)],
      g.1 + g.2 ≤ 364 := by decide
  exact this _ h

theorem store_eq {m : Mem} {a : Nat} (p : PartialPosition) (ha : a % PartialPosition.ty.align = 0)
    (hm : m.Accessible a 364) : store m a p = .ok (overlays m a p.fieldBytes) := by
  have step : ∀ (f : Nat × List U8) (m' : Mem), f ∈ p.fieldBytes → (∀ x, m' x ≠ none ↔ m x ≠ none) →
      m'.writeBytes (a + f.1) f.2 = .ok (overlay m' (a + f.1) f.2) ∧
      ∀ x, overlay m' (a + f.1) f.2 x ≠ none ↔ m x ≠ none := by
    intro f m' hf hx
    have he := fieldBytes_end p f hf
    have hacc : ∀ i < f.2.length, m' (a + f.1 + i) ≠ none := fun i hi => by
      rw [Nat.add_assoc]; exact (hx _).2 (hm _ (by omega))
    exact ⟨Mem.writeBytes_eq _ _ _ hacc, fun x => (overlay_isSome _ _ _ _ hacc).trans (hx x)⟩
  unfold store
  rw [off0, off1, off2, off3, off4, off5, off6, off7, if_neg (by simpa using ha)]
  obtain ⟨e0, h0⟩ := step (0, intBytes 1 p.side.toU8) m (by simp [fieldBytes]) (fun _ => Iff.rfl)
  rw [e0, Res.bind_ok]
  obtain ⟨e1, h1⟩ := step (2, intBytes 2 p.ply) _ (by simp [fieldBytes]) h0
  rw [e1, Res.bind_ok]
  obtain ⟨e2, h2⟩ := step (4, arrBytes Hand.bytes p.hands) _ (by simp [fieldBytes]) h1
  rw [e2, Res.bind_ok]
  obtain ⟨e3, h3⟩ := step (20, arrBytes (fun x => intBytes 1 x.val) p.board) _
    (by simp [fieldBytes]) h2
  rw [e3, Res.bind_ok]
  obtain ⟨e4, h4⟩ := step (104, arrBytes Bitboard.bytes p.player_bb) _ (by simp [fieldBytes]) h3
  rw [e4, Res.bind_ok]
  obtain ⟨e5, h5⟩ := step (136, arrBytes Bitboard.bytes p.piece_bb) _ (by simp [fieldBytes]) h4
  rw [e5, Res.bind_ok]
  obtain ⟨e6, h6⟩ := step (360, intBytes 2 p.last_move.val) _ (by simp [fieldBytes]) h5
  rw [e6, Res.bind_ok]
  obtain ⟨e7, h7⟩ := step (362, arrBytes (fun x => intBytes 1 x.val) p.king_square) _
    (by simp [fieldBytes]) h6
  rw [e7]
  rfl

theorem load_of_fields {m : Mem} {a : Nat} {p : PartialPosition}
    (ha : a % PartialPosition.ty.align = 0)
    (h : ∀ f ∈ p.fieldBytes, ∀ k (hk : k < f.2.length), m (a + f.1 + k) = some f.2[k]) :
    load m a = .ok p := by
  have rd : ∀ f ∈ p.fieldBytes, ∀ n, f.2.length = n → m.readBytes (a + f.1) n = .ok f.2 := by
    rintro f hf n rfl
    exact Mem.readBytes_eq _ _ _ (h f hf)
  unfold load
  rw [off0, off1, off2, off3, off4, off5, off6, off7, if_neg (by simpa using ha)]
  have r0 := rd (0, intBytes 1 p.side.toU8) (by simp [fieldBytes]) _ (intBytes_length _ _)
  have r1 := rd (2, intBytes 2 p.ply) (by simp [fieldBytes]) _ (intBytes_length _ _)
  have r2 := rd (4, arrBytes Hand.bytes p.hands) (by simp [fieldBytes]) _
    (arrBytes_length Hand.bytes_length _)
  have r3 := rd (20, arrBytes (fun x => intBytes 1 x.val) p.board) (by simp [fieldBytes]) _
    (arrBytes_length (w := 1) (fun _ => intBytes_length _ _) _)
  have r4 := rd (104, arrBytes Bitboard.bytes p.player_bb) (by simp [fieldBytes]) _
    (arrBytes_length Bitboard.bytes_length _)
  have r5 := rd (136, arrBytes Bitboard.bytes p.piece_bb) (by simp [fieldBytes]) _
    (arrBytes_length Bitboard.bytes_length _)
  have r6 := rd (360, intBytes 2 p.last_move.val) (by simp [fieldBytes]) _ (intBytes_length _ _)
  have r7 := rd (362, arrBytes (fun x => intBytes 1 x.val) p.king_square) (by simp [fieldBytes]) _
    (arrBytes_length (w := 1) (fun _ => intBytes_length _ _) _)
  simp only [Nat.mul_one] at r3 r7
  simp only [Res.pure_eq, Res.bind_ok, r0, transmute_side, r1, r2, r3, r4, r5, r6, r7,
    intOf_intBytes (w := 16) (k := 2) rfl,
    arrOf_arrBytes Hand.bytes_length Hand.ofBytes_bytes,
    arrOf_arrBytes Bitboard.bytes_length Bitboard.ofBytes_bytes]
  rw [arrOf_arrBytes (fun _ => intBytes_length _ _) (fun x => by rw [intOf_intBytes (k := 1) rfl]),
    arrOf_arrBytes (fun _ => intBytes_length _ _) (fun x => by rw [intOf_intBytes (k := 1) rfl])]

theorem load_congr {m m' : Mem} {a b : Nat}
    (ha : a % PartialPosition.ty.align = 0) (hb : b % PartialPosition.ty.align = 0)
    (h : ∀ k < 364, m (a + k) = m' (b + k)) : load m a = load m' b := by
  have rd : ∀ o n, o + n ≤ 364 → m.readBytes (a + o) n = m'.readBytes (b + o) n := by
    intro o n hn
    apply Mem.readBytes_congr
    intro k hk
    rw [Nat.add_assoc, Nat.add_assoc]; exact h _ (by omega)
  unfold load
  rw [off0, off1, off2, off3, off4, off5, off6, off7, if_neg (by simpa using ha),
    if_neg (by simpa using hb), rd 0 1 (by omega), rd 2 2 (by omega), rd 4 _ (by omega),
    rd 20 _ (by omega), rd 104 _ (by omega), rd 136 _ (by omega), rd 360 _ (by omega),
    rd 362 _ (by omega)]

end PartialPosition
end
end ShogiCore
