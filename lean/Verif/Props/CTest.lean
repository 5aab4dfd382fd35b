import Verif.Model.CTest
import Verif.Props.CStruct
import Verif.Props.Memory
import Verif.Props.Sfen
import Verif.Props.Decode

/- C80: the C test program of the repository. -/

set_option linter.unusedSectionVars false

namespace ShogiCore

open PartialPosition

/-- `l` and a NUL are in memory at `a`. -/
def Mem.HoldsString (m : Mem) (a : Nat) (l : List U8) : Prop :=
  (∀ i (h : i < l.length), m (a + i) = some l[i]) ∧ m (a + l.length) = some 0

private theorem strEq_spec {m : Mem} {a b : Nat} {l k : List U8} (hl : ∀ x ∈ l, x ≠ 0) (hk : ∀ x ∈ k, x ≠ 0)
    (ha : m.HoldsString a l) (hb : m.HoldsString b k) (fuel : Nat) (hf : l.length < fuel) :
    strEq m fuel a b = .ok (some (decide (l = k))) := by
  induction l generalizing k a b fuel with
  | nil =>
    obtain ⟨f, rfl⟩ : ∃ f, fuel = f + 1 := ⟨fuel - 1, by omega⟩
    have e1 : m a = some 0 := ha.2
    cases k with
    | nil =>
      have e2 : m b = some 0 := hb.2
      simp [strEq, Mem.read, e1, e2]
    | cons y k =>
      have e2 : m b = some y := hb.1 0 (by simp)
      have := hk y (by simp)
      simp only [strEq, Mem.read, e1, e2, Res.bind_ok]
      rw [if_pos (Ne.symm this)]; simp
  | cons x l ih =>
    obtain ⟨f, rfl⟩ : ∃ f, fuel = f + 1 := ⟨fuel - 1, by omega⟩
    have e1 : m a = some x := ha.1 0 (by simp)
    have hx := hl x (by simp)
    cases k with
    | nil =>
      have e2 : m b = some 0 := hb.2
      simp only [strEq, Mem.read, e1, e2, Res.bind_ok]
      rw [if_pos hx]; simp
    | cons y k =>
      have e2 : m b = some y := hb.1 0 (by simp)
      simp only [strEq, Mem.read, e1, e2, Res.bind_ok]
      by_cases hxy : x = y
      · subst hxy
        rw [if_neg (by simp), if_neg hx]
        have shift : ∀ {a : Nat} {l : List U8}, m.HoldsString a (x :: l) → m.HoldsString (a + 1) l := by
          intro a l h
          refine ⟨fun i hi => ?_, ?_⟩
          · have := h.1 (i + 1) (by simpa using hi)
            rw [show a + 1 + i = a + (i + 1) by omega]
            simpa using this
          · have := h.2
            rw [List.length_cons] at this
            rw [show a + 1 + l.length = a + (l.length + 1) by omega]; exact this
        rw [ih (fun z hz => hl z (by simp [hz])) (fun z hz => hk z (by simp [hz])) (shift ha) (shift hb) f
          (by simpa using hf)]
        simp
      · rw [if_pos hxy]
        simp [hxy]

variable [T : Target] [P : Profile]

/-- C80: `strcmp` as used by the test tells texts apart: it finds strings without NUL bytes equal
exactly if they are. -/
theorem C80_strcmp {m : Mem} {a b : Nat} {l k : List U8} (hl : ∀ x ∈ l, x ≠ 0) (hk : ∀ x ∈ k, x ≠ 0)
    (ha : m.HoldsString a l) (hb : m.HoldsString b k) (fuel : Nat) (hf : l.length < fuel) :
    (strEq m fuel a b = .ok (some true) ↔ l = k) ∧ (strEq m fuel a b = .ok (some false) ↔ l ≠ k) := by
  rw [strEq_spec hl hk ha hb fuel hf]
  by_cases h : l = k <;> simp [h]

private theorem same_sfen {p q : PartialPosition} (hp : ApiReach p) (hq : ApiReach q) :
    p.to_sfen_owned = q.to_sfen_owned ↔ p.SamePosition q ∧ p.get_ply = q.get_ply := by
  constructor
  · intro e
    obtain ⟨h1, h2, h3, h4⟩ := C36_injective p q hp hq e
    exact ⟨⟨h1, h3, h2⟩, h4⟩
  · rintro ⟨h, hply⟩
    have hh : ∀ c, p.handOf c = q.handOf c := by
      intro c
      have e := h.hands c
      rw [hand_of_a_player_ok, hand_of_a_player_ok] at e
      exact Res.ok.inj e
    have hb : p.boardChunks = q.boardChunks := by
      have key : ∀ r, 1 ≤ r ∧ r ≤ 9 → p.rankCells r = q.rankCells r := by
        intro r hr
        unfold rankCells
        apply List.map_congr_left
        intro f hf
        have hf' : 1 ≤ f ∧ f ≤ 9 := by simp at hf; omega
        rw [h.board _ (at_idx hf' hr).1]
      simp only [boardChunks, List.flatMap_cons, List.flatMap_nil, key 1 (by omega),
        key 2 (by omega), key 3 (by omega), key 4 (by omega), key 5 (by omega), key 6 (by omega),
        key 7 (by omega), key 8 (by omega), key 9 (by omega)]
    rw [to_sfen_owned_ok (reach_ok hp), to_sfen_owned_ok (reach_ok hq)]
    simp only [sfenChunks, hb, hh, h.side, hply]

/-- C80: a C program that has two positions written to two buffers and compares the texts with
`strcmp` learns whether they have the same board, hands, side to move and move number. -/
theorem C80_compare (p q : PartialPosition) (hp : ApiReach p) (hq : ApiReach q) (m : Mem) (a b fuel : Nat)
    (ha : m.Accessible a 236) (hb : m.Accessible b 236) (hab : a + 236 ≤ b ∨ b + 236 ≤ a)
    (hf : 236 ≤ fuel) :
    ∃ m1 m2 r, p.to_sfen_c m a = .ok m1 ∧ q.to_sfen_c m1 b = .ok m2 ∧
      strEq m2 fuel a b = .ok (some r) ∧
      (r = true ↔ p.SamePosition q ∧ p.get_ply = q.get_ply) := by
  obtain ⟨l, el, hl, h1, _⟩ := C38_memory p hp m a
  have len : ∀ {p : PartialPosition} {l : List U8}, ApiReach p → p.to_sfen_owned = .ok l → l.length ≤ 235 := by
    intro p l hp e
    rw [to_sfen_owned_ok (reach_ok hp)] at e
    cases e
    exact sfen_le _ _ _
  have ll := len hp el
  obtain ⟨m1, e1, g1, g2, g3⟩ := h1 (fun i hi => ha i (by omega))
  obtain ⟨k, ek, hk, h2, _⟩ := C38_memory q hq m1 b
  have lk := len hq ek
  obtain ⟨m2, e2, g4, g5, g6⟩ := h2 (fun i hi => by rw [g3 _ (by omega)]; exact hb i (by omega))
  refine ⟨m1, m2, _, e1, e2, strEq_spec hl hk ⟨fun i hi => ?_, ?_⟩ ⟨g4, g5⟩ fuel (by omega), ?_⟩
  · rw [g6 _ (by omega)]; exact g1 i hi
  · rw [g6 _ (by omega)]; exact g2
  · rw [decide_eq_true_iff, ← same_sfen hp hq, el, ek]
    exact ⟨fun h => by rw [h], fun h => by cases h; rfl⟩

/-- The starting position compared with itself, and with the same board with White to move. -/
example (m : Mem) (ha : m.Accessible 0 236) (hb : m.Accessible 236 236) :
    ∃ m1 m2, sp0.to_sfen_c m 0 = .ok m1 ∧ (sp0.side_to_move_set .White).to_sfen_c m1 236 = .ok m2 ∧
      strEq m2 236 0 236 = .ok (some false) := by
  have h0 : ApiReach sp0 := .startpos PartialPosition.startpos_ok
  obtain ⟨m1, m2, r, e1, e2, e3, e4⟩ := C80_compare sp0 (sp0.side_to_move_set .White) h0 (.step h0 .side)
    m 0 236 236 ha hb (by omega) (by omega)
  refine ⟨m1, m2, e1, e2, ?_⟩
  cases r with
  | false => exact e3
  | true =>
    have := (e4.1 rfl).1.side
    exact absurd this (by decide +kernel)

private theorem text_length : cTestText.length = 63 := by decide +kernel
private theorem text_nonzero : ∀ x ∈ cTestText, x ≠ 0 := by decide +kernel

/-- C80: on every target, in every memory, the C test program passes: both `assert`s hold, no step
is undefined, and outside of its two variables nothing changes.  (The variables do not overlap; the
model, which reads the whole struct before it writes, does not need that.) -/
theorem C80_c_test (m : Mem) (pos buf lit fuel : Nat) (ha : pos % PartialPosition.ty.align = 0)
    (hpos : m.Accessible pos PartialPosition.ty.size) (hbuf : m.Accessible buf 200)
    (hlit : m.HoldsString lit cTestText) (hf : 64 ≤ fuel)
    (_d1 : pos + PartialPosition.ty.size ≤ buf ∨ buf + 200 ≤ pos)
    (d2 : pos + PartialPosition.ty.size ≤ lit ∨ lit + 64 ≤ pos) (d3 : buf + 200 ≤ lit ∨ lit + 64 ≤ buf) :
    ∃ m', c_test_main m pos buf lit fuel = .ok (m', some true, some true) ∧
      ∀ x, (x < pos ∨ pos + PartialPosition.ty.size ≤ x) → (x < buf ∨ buf + 200 ≤ x) → m' x = m x := by
  have hsp : PartialPosition.startpos = .ok sp0 := PartialPosition.startpos_ok
  have sp0_reach : ApiReach sp0 := .startpos hsp
  obtain ⟨m1, e1, l1, f1, a1⟩ := (C68_roundtrip m pos sp0).1 ha hpos
  have acc1 : ∀ i < 200, m1 (buf + i) ≠ none := fun i hi => (a1 _).2 (hbuf i hi)
  have keep : ∀ m' : Mem, (∀ x, (x < pos ∨ pos + PartialPosition.ty.size ≤ x) →
      (x < buf ∨ buf + 200 ≤ x) → m' x = m x) → m'.HoldsString lit cTestText := by
    intro m' h
    have tl := text_length
    refine ⟨fun i hi => ?_, ?_⟩
    · rw [h _ (by omega) (by omega)]; exact hlit.1 i hi
    · rw [h _ (by omega) (by omega)]; exact hlit.2
  have write : ∀ m0 : Mem, (∀ i < 200, m0 (buf + i) ≠ none) → ∃ m', sp0.to_sfen_c m0 buf = .ok m' ∧
      m'.HoldsString buf cTestText ∧ ∀ x, (x < buf ∨ buf + 200 ≤ x) → m' x = m0 x := by
    intro m0 h0
    obtain ⟨txt, et, _, h1, _⟩ := C38_memory sp0 sp0_reach m0 buf
    rw [sp0_sfen] at et
    cases et
    have tl : (ascii "lnsgkgsnl/1r5b1/ppppppppp/9/9/9/PPPPPPPPP/1B5R1/LNSGKGSNL b - 1").length = 63 := text_length
    obtain ⟨m', e, g1, g2, g3⟩ := h1 (fun i hi => h0 i (by omega))
    exact ⟨m', e, ⟨g1, g2⟩, fun x hx => g3 x (by omega)⟩
  obtain ⟨m2, e2, s2, f2⟩ := write m1 acc1
  have k2 : ∀ x, (x < pos ∨ pos + PartialPosition.ty.size ≤ x) → (x < buf ∨ buf + 200 ≤ x) → m2 x = m x :=
    fun x h h' => (f2 x h').trans (f1 x h)
  have q2 := strEq_spec text_nonzero text_nonzero s2 (keep m2 k2) fuel (by rw [text_length]; omega)
  have acc2 : m2.Accessible buf 200 := by
    intro i hi
    by_cases h : i ≤ 63
    · by_cases h' : i < 63
      · rw [s2.1 i (by rw [text_length]; exact h')]; simp
      · have : i = cTestText.length := by rw [text_length]; omega
        rw [this, s2.2]; simp
    · obtain ⟨txt, et, _, h1, _⟩ := C38_memory sp0 sp0_reach m1 buf
      rw [sp0_sfen] at et
      cases et
      have tl : (ascii "lnsgkgsnl/1r5b1/ppppppppp/9/9/9/PPPPPPPPP/1B5R1/LNSGKGSNL b - 1").length = 63 := text_length
      obtain ⟨m', e, _, _, g3⟩ := h1 (fun i hi => acc1 i (by omega))
      rw [e2] at e; cases e
      rw [g3 _ (by omega)]
      exact acc1 i hi
  obtain ⟨m3, e3, z3, f3⟩ := C51_memset (c := 0) acc2
  have k3 : ∀ x, (x < pos ∨ pos + PartialPosition.ty.size ≤ x) → (x < buf ∨ buf + 200 ≤ x) → m3 x = m x :=
    fun x h h' => (f3 x (fun k hk => by omega)).trans (k2 x h h')
  obtain ⟨m4, e4, s4, f4⟩ := write m3 (fun i hi => by obtain ⟨v, hv, _⟩ := z3 i hi; rw [hv]; simp)
  have k4 : ∀ x, (x < pos ∨ pos + PartialPosition.ty.size ≤ x) → (x < buf ∨ buf + 200 ≤ x) → m4 x = m x :=
    fun x h h' => (f4 x h').trans (k3 x h h')
  have q4 := strEq_spec text_nonzero text_nonzero s4 (keep m4 k4) fuel (by rw [text_length]; omega)
  obtain ⟨p, hp, hq, _⟩ := C35_default
  rw [reach_of_startpos hp] at hq
  refine ⟨m4, ?_, k4⟩
  simp only [decide_true] at q2 q4
  simp only [c_test_main, startpos_ptr, to_sfen_c_ptr, hsp, e1, l1, e2, q2, e3, hq, Position.to_sfen_c, e4, q4,
    Res.bind_ok, Res.pure_eq]

/-- The memory of the example: the literal at 2000, zeros elsewhere. -/
private def cMem : Mem := fun a => if 2000 ≤ a then some (cTestText.getD (a - 2000) 0) else some 0

/-- Such memories exist. -/
example : ∃ m', c_test_main cMem 0 1000 2000 100 = .ok (m', some true, some true) := by
  have hs : PartialPosition.ty.size ≤ 368 := by
    have := C68_layout (T := T)
    rw [this.2.2.2.2.2]; split <;> decide
  obtain ⟨m', h, _⟩ := C80_c_test cMem 0 1000 2000 100 (Nat.zero_mod _)
    (by intro i _; unfold cMem; split <;> simp) (by intro i _; unfold cMem; split <;> simp)
    ⟨fun i hi => by
        unfold cMem; rw [if_pos (by omega), Nat.add_sub_cancel_left, List.getD, List.getElem?_eq_getElem hi]; rfl,
      by unfold cMem; rw [if_pos (by omega), Nat.add_sub_cancel_left]; simp⟩
    (by omega) (by omega) (by omega) (by omega)
  exact ⟨m', h⟩

end ShogiCore
