import Verif.Spec.Bytes
import Verif.Lemmas.Bytes
import Verif.Lemmas.Layout

/- C92: the bytes of the boxed positions of the C interface. -/

set_option linter.unusedSectionVars false

namespace ShogiCore

variable [P : Profile]

theorem Holds.stands {C : Compiler} {A : AllocState} {used bufs : List Nat}
    {own : Nat → Option Nat} {f : Nat → U8} {a : Nat} {r : Recorder} {h : PositionFields}
    (H : Holds C A used bufs own f a r h) : StandsFor C f a r.pos :=
  ⟨h, H.read, H.initial, H.inner, H.len, H.le, H.moves⟩

/-- C92: whatever any number of threads do with boxed positions, byte by byte, looks like moves on
values: the same calls with the same results are possible for the positions of C71, and the bytes
of a position on which no function is running stand for the value there. -/
theorem C92_refines {C : Compiler} (hL : 0 < C.position.size.toNat) {es : List BoxEvent}
    {b : ByteState} (r : ByteRun C es b) (hv : ∀ e ∈ es, e.Valid) :
    ∃ s, RecRun C.position C.move C.grow es s ∧ s.alloc = b.alloc ∧ s.used = b.used ∧
      s.bufs = b.bufs ∧ (∀ a, (s.objs a).isSome = (b.live a).isSome) ∧
      ∀ a x, s.objs a = some x → b.live a = some [] → StandsFor C b.arena a x.pos := by
  obtain ⟨s, own, rr, S⟩ := sim_run hL r hv
  refine ⟨s, rr, S.alloc.symm, S.used.symm, S.bufs.symm, fun a => ?_, fun a x hx hl => ?_⟩
  · rcases S.objs a with ⟨h1, h2⟩ | ⟨_, _, _, h1, h2, _⟩ <;> rw [h1, h2] <;> rfl
  · rcases S.objs a with ⟨h1, h2⟩ | ⟨ps, x', h, h1, h2, H, _⟩
    · rw [hl] at h1; cases h1
    · rw [hl] at h1
      rw [hx] at h2
      cases h1
      cases h2
      exact H.stands

/-- C92: a handle is live from its creation to its destruction, and whenever no function is running
on it, its bytes stand for the starting position followed by the moves accepted through it. -/
theorem C92_contents {C : Compiler} (hL : 0 < C.position.size.toNat) {es : List BoxEvent}
    {b : ByteState} (r : ByteRun C es b) (hv : ∀ e ∈ es, e.Valid) (a : Nat) :
    ((b.live a).isSome ↔ .create a ∈ es ∧ .destruct a ∉ es) ∧
    (b.live a = some [] → ∃ p Q, PartialPosition.startpos = .ok p ∧
      Position.From p (acceptedBy a es) Q ∧ StandsFor C b.arena a Q) := by
  obtain ⟨s, rr, _, _, _, h1, h2⟩ := C92_refines hL r hv
  have ind := C69_independent hL (C71_refines rr) hv a
  refine ⟨?_, fun hl => ?_⟩
  · rw [← h1 a, ← ind.1]
    simp [RecState.boxes]
  · have h3 := h1 a
    rw [hl] at h3
    obtain ⟨x, hx⟩ := Option.isSome_iff_exists.1 h3
    obtain ⟨p, hp, hf⟩ := ind.2 x.pos (by simp only [RecState.boxes, hx]; rfl)
    exact ⟨p, x.pos, hp, hf, h2 a x hx hl⟩

/-- C92: bytes do not stand for two different positions. -/
theorem C92_unique {C : Compiler} {f : Nat → U8} {a : Nat} {Q R : Position}
    (hQ : StandsFor C f a Q) (hR : StandsFor C f a R) : Q = R := by
  obtain ⟨h, h1, h2, h3, h4, _, h5⟩ := hQ
  obtain ⟨h', g1, g2, g3, g4, _, g5⟩ := hR
  rw [h1] at g1
  cases g1
  obtain ⟨qi, qn, qm⟩ := Q
  obtain ⟨ri, rn, rm⟩ := R
  simp only at h2 h3 h4 h5 g2 g3 g4 g5
  have : qm = rm := List.ext_getElem (by omega) fun k hk hk' =>
    Option.some.inj ((h5 k hk).symm.trans (g5 k hk'))
  rw [← h2, ← h3, ← g2, ← g3, this]

/-- C92: the result of a move is the one the position on its own gives. -/
theorem C92_verdict {C : Compiler} (hL : 0 < C.position.size.toNat) {es es' : List BoxEvent}
    {a : Nat} {mv : Move} {v : Bool} {b : ByteState} (r : ByteRun C (es ++ .move a mv v :: es') b)
    (hv : ∀ e ∈ es ++ .move a mv v :: es', e.Valid) :
    ∃ p Q R u, PartialPosition.startpos = .ok p ∧ Position.From p (acceptedBy a es) Q ∧
      Q.make_move mv = .ok (R, u) ∧ v = u.isSome := by
  obtain ⟨s, rr, _⟩ := C92_refines hL r hv
  exact C69_verdict hL (C71_refines rr) hv

/-- C92: no function writes anywhere but into the blocks that the allocator returned for its own
position: every store lies within the arena, in a block that has become a position or a buffer,
outside the blocks used for anything else, and different from the bytes of every other position,
from those of its buffer, and from the stores of the functions running on others. -/
theorem C92_stores {C : Compiler} (hL : 0 < C.position.size.toNat) {es : List BoxEvent}
    {b : ByteState} (r : ByteRun C es b) (hv : ∀ e ∈ es, e.Valid) {a : Nat} {ps : List ByteStore}
    (hl : b.live a = some ps) {x : ByteStore} (hx : x ∈ ps) :
    x.1 < 128 * 1024 ∧ (∃ k, (k ∈ b.used ∨ k ∈ b.bufs) ∧ b.alloc.Owns k x.1) ∧
    (∀ k, k ∉ b.used → k ∉ b.bufs → ¬ b.alloc.Owns k x.1) ∧
    ∀ d, d ≠ a → (∀ qs, b.live d = some qs → ∀ y ∈ qs, y.1 ≠ x.1) ∧
      (b.live d ≠ none → ¬ (d ≤ x.1 ∧ x.1 < d + C.position.size.toNat)) ∧
      (b.live d = some [] → ∀ h, C.fields (bytesAt b.arena d C.position.size.toNat) = some h →
        ¬ (h.ptr ≤ x.1 ∧ x.1 < h.ptr + h.cap * C.move.size.toNat)) := by
  obtain ⟨s, own, rr, S⟩ := sim_run hL r hv
  have hA : AllocReachable b.alloc := S.alloc ▸ (box_inv hL (C71_refines rr) hv).reach
  have mine : ∀ {d qs}, b.live d = some qs → ∀ y ∈ qs, Mine b.alloc own d y.1 := by
    intro d qs hd
    rcases S.objs d with ⟨h1, _⟩ | ⟨_, _, _, h1, _, _, h3⟩
    · rw [hd] at h1; cases h1
    · rw [hd] at h1; cases h1; exact h3
  have hm := mine hl x hx
  obtain ⟨k, hk, ok⟩ := hm
  refine ⟨?_, ⟨k, S.owned k a hk, ok⟩, ?_, ?_⟩
  · obtain ⟨l, o, h1, h2, h3⟩ := ok
    have := C49_inside hA h1
    omega
  · intro j hu hb oj
    refine C49_disjoint hA ?_ ok oj
    rintro rfl
    exact (S.owned _ _ hk).elim hu hb
  · intro d hd
    refine ⟨fun qs hq y hy => mine_ne hA hd (mine hq y hy) (mine hl x hx), fun hn hc => ?_,
      fun hi h hr hc => ?_⟩
    · rcases S.objs d with ⟨h1, _⟩ | ⟨_, _, _, _, _, H, _⟩
      · exact hn h1
      · obtain ⟨i, _, oi, ri⟩ := H.block
        exact mine_ne hA hd ⟨i, oi, _, _, ri, hc.1, hc.2⟩ (mine hl x hx) rfl
    · obtain ⟨y, _, H⟩ := S.idle hi hr
      by_cases h0 : h.cap = 0
      · rw [h0] at hc; omega
      · obtain ⟨j, _, oj, rj, hsz⟩ := H.buf h0
        refine mine_ne hA hd ⟨j, oj, _, _, rj, hc.1, ?_⟩ (mine hl x hx) rfl
        rw [array_size hsz]
        exact hc.2

/-- C92: conversely, if every value has bytes, everything that can be done with the values of C71
can be done with bytes. -/
theorem C92_can {C : Compiler} (hL : 0 < C.position.size.toNat) (hM : 0 < C.move.size.toNat)
    (hC : C.Complete) {es : List BoxEvent} {s : RecState}
    (r : RecRun C.position C.move C.grow es s) (hv : ∀ e ∈ es, e.Valid) :
    ∃ b, ByteRun C es b ∧ (∀ a, b.live a = (s.objs a).map fun _ => []) ∧
      ∀ a x, s.objs a = some x → StandsFor C b.arena a x.pos := by
  obtain ⟨b, own, rb, S, I⟩ := can_run hL hM hC r hv
  have key : ∀ a, b.live a = (s.objs a).map fun _ => [] := by
    intro a
    rcases S.objs a with ⟨h1, h2⟩ | ⟨ps, x, h, h1, h2, _⟩
    · rw [h1, h2]; rfl
    · rw [h2]
      rcases I a with e | e
      · rw [e] at h1; cases h1
      · exact e
  refine ⟨b, rb, key, fun a x hx => ?_⟩
  have hl := key a
  rw [hx] at hl
  rcases S.objs a with ⟨h1, _⟩ | ⟨ps, x', h, h1, h2, H, _⟩
  · rw [hl] at h1; cases h1
  · rw [hl] at h1
    rw [hx] at h2
    cases h1
    cases h2
    exact H.stands

/-- C92: the pointers that `Position_inner` and `Position_initial_position` give can be passed to
the functions for `PartialPosition`: if the arena is aligned, what these read there is the position
after all moves accepted, and the starting position. -/
theorem C92_pointers [T : Target] {C : Compiler} (hL : 0 < C.position.size.toNat)
    (hl : C.position.Valid) (hC : C.Places) {es : List BoxEvent} {b : ByteState}
    (r : ByteRun C es b) (hv : ∀ e ∈ es, e.Valid) {a : Nat} (hi : b.live a = some []) {base : Nat}
    (hb : base % PartialPosition.ty.align = 0) {m : Mem}
    (hm : ∀ x < 128 * 1024, m (base + x) = some (b.arena x)) :
    ∃ p Q, PartialPosition.startpos = .ok p ∧ Position.From p (acceptedBy a es) Q ∧
      PartialPosition.load m (inner_ptr C base a) = .ok Q.get_inner ∧
      PartialPosition.load m (initial_position_ptr C base a) = .ok p := by
  obtain ⟨p, Q, hp, hf, h, h1, h2, h3, _⟩ := (C92_contents hL r hv a).2 hi
  obtain ⟨s, own, rr, S⟩ := sim_run hL r hv
  have hA : AllocReachable b.alloc := S.alloc ▸ (box_inv hL (C71_refines rr) hv).reach
  obtain ⟨x, _, H⟩ := S.idle hi h1
  obtain ⟨i, _, _, ri⟩ := H.block
  have ha : (base + a) % PartialPosition.ty.align = 0 := by
    have h4 := Nat.dvd_of_mod_eq_zero (C50_offset hA hl ri)
    have h5 := Nat.dvd_trans (Nat.dvd_of_mod_eq_zero hC.align) h4
    exact Nat.mod_eq_zero_of_dvd (Nat.dvd_add (Nat.dvd_of_mod_eq_zero hb) h5)
  have hin := (C49_inside hA ri).1
  have hbytes : ∀ k (hk : k < (bytesAt b.arena a C.position.size.toNat).length),
      m (base + a + k) = some (bytesAt b.arena a C.position.size.toNat)[k] := by
    intro k hk
    rw [bytesAt_getElem, Nat.add_assoc]
    rw [bytesAt_length] at hk
    exact hm _ (by omega)
  have hini : Q.initial = p := (C33_replay p (.startpos hp) _ Q hf).1
  refine ⟨p, Q, hp, hf, ?_, ?_⟩
  · rw [show Q.get_inner = h.inner from h3.symm]
    exact hC.inner _ _ (bytesAt_length ..) h1 m _ ha hbytes
  · rw [← hini, ← h2]
    exact hC.initial _ _ (bytesAt_length ..) h1 m _ ha hbytes

/-! ### Non-vacuity: a compiler -/

namespace Demo

/-- Little-endian, `u64` aligned to 8 bytes. -/
local instance : Target := ⟨false, true⟩

/-- The memory that consists of these bytes. -/
def memOf (bs : List U8) : Mem := fun x => bs[x]?

/-- `Position` as two `PartialPosition`s followed by three numbers of 8 bytes. -/
def fields (bs : List U8) : Option PositionFields :=
  match PartialPosition.load (memOf bs) 0, PartialPosition.load (memOf bs) 368 with
  | .ok i, .ok j =>
    let ptr := ofLe ((bs.drop 736).take 8)
    let cap := ofLe ((bs.drop 744).take 8)
    let len := ofLe ((bs.drop 752).take 8)
    if ptr < 2 ^ Profile.bits ∧ cap < 2 ^ Profile.bits ∧ len < 2 ^ Profile.bits then
      some ⟨i, j, ptr, cap, len⟩
    else none
  | _, _ => none

/-- `Move` in three bytes; the third one tells drops from other moves. -/
def moveOf : List U8 → Option Move
  | [x, y, 0] => some (.Normal ⟨x⟩ ⟨y⟩ false)
  | [x, y, 1] => some (.Normal ⟨x⟩ ⟨y⟩ true)
  | [x, y, 2] => some (.Drop ⟨x⟩ ⟨y⟩)
  | _ => none

theorem fields_ok {bs : List U8} {h : PositionFields} (e : fields bs = some h) :
    PartialPosition.load (memOf bs) 0 = .ok h.initial ∧
    PartialPosition.load (memOf bs) 368 = .ok h.inner ∧
    h.ptr < 2 ^ Profile.bits ∧ h.cap < 2 ^ Profile.bits ∧ h.len < 2 ^ Profile.bits := by
  unfold fields at e
  split at e
  · next i j h1 h2 =>
    simp only at e
    split at e
    · next h3 => cases e; exact ⟨h1, h2, h3⟩
    · cases e
  · cases e

/-- A compiler for 64-bit machines. -/
def compiler : Compiler where
  position := ⟨760, 8⟩
  move := ⟨3, 1⟩
  fields := fields
  moveOf := moveOf
  fits := fun _ _ e => (fields_ok e).2.2
  initialOff := 0
  innerOff := 368
  grow := doubling
  grow_lt := doubling_lt

/-- The bytes of a `PartialPosition`, padding zero. -/
def image (p : PartialPosition) : List U8 :=
  (List.range 368).map fun k => (overlays (fun _ => some 0) 0 p.fieldBytes k).getD 0

theorem image_length (p : PartialPosition) : (image p).length = 368 := by simp [image]

theorem load_image {m : Mem} {a : Nat} (p : PartialPosition) (ha : a % 8 = 0)
    (h : ∀ k (hk : k < (image p).length), m (a + k) = some (image p)[k]) :
    PartialPosition.load m a = .ok p := by
  refine PartialPosition.load_of_fields ha fun f hf k hk => ?_
  have hend := PartialPosition.fieldBytes_end p f hf
  rw [Nat.add_assoc, h (f.1 + k) (by rw [image_length]; omega)]
  have := overlays_in (m := fun _ => some 0) (a := 0) (PartialPosition.fieldBytes_pairwise p) hf hk
  rw [Nat.zero_add] at this
  simp only [image, List.getElem_map, List.getElem_range, this, Option.getD_some]

theorem le_eight {n : Nat} (h : n < 2 ^ Profile.bits) : ofLe (leBytes 8 n) = n := by
  rw [ofLe_leBytes]
  refine Nat.mod_eq_of_lt (Nat.lt_of_lt_of_le h ?_)
  exact Nat.le_trans (Nat.pow_le_pow_right (by omega) (show Profile.bits ≤ 64 by
    show P.build.ptr.bits ≤ 64
    cases P.build.ptr <;> decide)) (by decide)

/-- Every value has bytes. -/
theorem complete : compiler.Complete where
  fields := by
    intro h h1 h2 h3
    have hz : compiler.position.size.toNat = 760 := usize_toNat (by decide)
    obtain ⟨bs, hbs⟩ : ∃ bs, bs = image h.initial ++ image h.inner ++ leBytes 8 h.ptr ++
      leBytes 8 h.cap ++ leBytes 8 h.len := ⟨_, rfl⟩
    have l1 := image_length h.initial
    have l2 := image_length h.inner
    have l3 := leBytes_length 8 h.ptr
    have l4 := leBytes_length 8 h.cap
    have l5 := leBytes_length 8 h.len
    refine ⟨bs, by rw [hz, hbs]; simp only [List.length_append]; omega, ?_⟩
    have e1 : PartialPosition.load (memOf bs) 0 = .ok h.initial := by
      refine load_image _ rfl fun k hk => ?_
      rw [Nat.zero_add, ← List.getElem?_eq_getElem hk]
      show bs[k]? = _
      rw [hbs, List.append_assoc, List.append_assoc, List.append_assoc, List.getElem?_append_left hk]
    have e2 : PartialPosition.load (memOf bs) 368 = .ok h.inner := by
      refine load_image _ rfl fun k hk => ?_
      rw [← List.getElem?_eq_getElem hk]
      show bs[368 + k]? = _
      rw [hbs, List.append_assoc, List.append_assoc, List.append_assoc,
        List.getElem?_append_right (by omega), List.getElem?_append_left (by omega), l1]
      exact congrArg _ (Nat.add_sub_cancel_left ..)
    have e3 : (bs.drop 736).take 8 = leBytes 8 h.ptr := by
      rw [hbs, List.append_assoc, List.append_assoc,
        List.drop_left' (by simp only [List.length_append]; omega), List.take_left' l3]
    have e4 : (bs.drop 744).take 8 = leBytes 8 h.cap := by
      rw [hbs, List.append_assoc, List.drop_left' (by simp only [List.length_append]; omega),
        List.take_left' l4]
    have e5 : (bs.drop 752).take 8 = leBytes 8 h.len := by
      rw [hbs, List.drop_left' (by simp only [List.length_append]; omega)]
      exact List.take_of_length_le (by omega)
    show fields bs = some h
    unfold fields
    rw [e1, e2]
    simp only [e3, e4, e5, le_eight h1, le_eight h2, le_eight h3]
    exact if_pos ⟨h1, h2, h3⟩
  moves := by
    have hz : compiler.move.size.toNat = 3 := usize_toNat (by decide)
    intro m _
    cases m with
    | Normal s t p =>
      cases p
      · exact ⟨[s.val, t.val, 0], hz.symm, rfl⟩
      · exact ⟨[s.val, t.val, 1], hz.symm, rfl⟩
    | Drop x t => exact ⟨[x.val, t.val, 2], hz.symm, rfl⟩

/-- The layout is as `#[repr(C)]` wants it. -/
theorem places : compiler.Places where
  align := by
    have h8 : compiler.position.align.toNat = 8 := usize_toNat (by decide)
    rw [h8]; rfl
  inner := by
    intro bs h hlen e m p hp hm
    rw [← (fields_ok e).2.1]
    have hz : compiler.position.size.toNat = 760 := usize_toNat (by decide)
    refine PartialPosition.load_congr ?_ rfl fun k hk => ?_
    · have : p % 8 = 0 := hp
      show (p + 368) % 8 = 0
      omega
    · show m (p + 368 + k) = bs[368 + k]?
      rw [Nat.add_assoc, hm (368 + k) (by omega), List.getElem?_eq_getElem]
  initial := by
    intro bs h hlen e m p hp hm
    rw [← (fields_ok e).1]
    have hz : compiler.position.size.toNat = 760 := usize_toNat (by decide)
    refine PartialPosition.load_congr hp rfl fun k hk => ?_
    show m (p + 0 + k) = bs[0 + k]?
    rw [Nat.add_zero, Nat.zero_add, hm k (by omega), List.getElem?_eq_getElem]

/-- With this compiler a game of 16384 moves can be recorded; then the bytes in the arena stand for
it, and `Position_inner` points to its last position. -/
example : ∃ a es b Q, ByteRun compiler es b ∧ (∀ e ∈ es, e.Valid) ∧ b.live a = some [] ∧
    StandsFor compiler b.arena a Q ∧ Q.get_moves.length = 16384 ∧
    PartialPosition.load (fun x => some (b.arena x)) (inner_ptr compiler 0 a) = .ok Q.get_inner := by
  obtain ⟨a, es, s, x, h1, h2, h3, h4⟩ := C71_longest
  have hz : compiler.position.size.toNat = 760 := usize_toNat (by decide)
  have ha : compiler.position.align.toNat = 8 := usize_toNat (by decide)
  have hy : compiler.move.size.toNat = 3 := usize_toNat (by decide)
  obtain ⟨b, rb, hl, hs⟩ := C92_can (C := compiler) (by omega) (by omega) complete h1 h2
  have hi : b.live a = some [] := by rw [hl a, h3]; rfl
  refine ⟨a, es, b, x.pos, rb, h2, hi, hs a x h3, h4, ?_⟩
  obtain ⟨p, Q, hp, hf, h5, _⟩ := C92_pointers (C := compiler) (by omega) ⟨3, ha⟩ places rb h2 hi
    (base := 0) rfl (m := fun x => some (b.arena x)) (fun k _ => by rw [Nat.zero_add])
  obtain ⟨p', Q', hp', hf', h6⟩ := (C92_contents (C := compiler) (by omega) rb h2 a).2 hi
  rw [hp] at hp'
  cases hp'
  rw [h5, C92_unique (hs a x h3) h6]
  have g1 := (C33_replay p (.startpos hp) _ Q hf).2.2.1
  have g2 := (C33_replay p (.startpos hp) _ Q' hf').2.2.1
  rw [g1] at g2
  simpa using g2

end Demo

end ShogiCore
