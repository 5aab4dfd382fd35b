import Verif.Lemmas.Layout
import Verif.Spec.CStruct
import Verif.Props.Sfen
import Verif.Props.CApi

/- C68: `PartialPosition` in the memory of a C program. -/

set_option linter.unusedSectionVars false

namespace ShogiCore
open PartialPosition

variable [T : Target]

/-- C68: the struct of the C header and the Rust struct have the same layout: the same offsets of
all fields, size and alignment, on every platform; elements of the arrays included. -/
theorem C68_layout :
    (fieldOffsets 0 headerFields).1 = [0, 2, 4, 20, 104, 136, 360, 362] ∧
    (fieldOffsets 0 PartialPosition.fields).1 = [0, 2, 4, 20, 104, 136, 360, 362] ∧
    headerFields.map CTy.size = [1, 2, 16, 81, 32, 224, 2, 2] ∧
    PartialPosition.fields.map CTy.size = [1, 2, 16, 81, 32, 224, 2, 2] ∧
    CTy.struct headerFields = PartialPosition.ty ∧
    PartialPosition.ty = (if T.wideAlign then ⟨368, 8⟩ else ⟨364, 4⟩) := by
  have h : ∀ e w, let T : Target := ⟨e, w⟩
      (fieldOffsets 0 headerFields).1 = [0, 2, 4, 20, 104, 136, 360, 362] ∧
      (fieldOffsets 0 PartialPosition.fields).1 = [0, 2, 4, 20, 104, 136, 360, 362] ∧
      headerFields.map CTy.size = [1, 2, 16, 81, 32, 224, 2, 2] ∧
      PartialPosition.fields.map CTy.size = [1, 2, 16, 81, 32, 224, 2, 2] ∧
      CTy.struct headerFields = PartialPosition.ty ∧
      PartialPosition.ty = (if T.wideAlign then ⟨368, 8⟩ else ⟨364, 4⟩) := by
    decide +kernel
  exact h T.bigEndian T.wideAlign

theorem accessible_mono {m : Mem} {a n k : Nat} (h : m.Accessible a n) (hk : k ≤ n) :
    m.Accessible a k := fun i hi => h i (by omega)

/-- C68: a position written to an aligned accessible place is read back unchanged, whatever its
value; nothing outside the struct changes, and accessibility does not change.  Misaligned or
inaccessible places are undefined behaviour. -/
theorem C68_roundtrip (m : Mem) (a : Nat) (p : PartialPosition) :
    (a % PartialPosition.ty.align = 0 → m.Accessible a PartialPosition.ty.size →
      ∃ m', PartialPosition.store m a p = .ok m' ∧ PartialPosition.load m' a = .ok p ∧
        (∀ x, x < a ∨ a + PartialPosition.ty.size ≤ x → m' x = m x) ∧
        ∀ x, m' x ≠ none ↔ m x ≠ none) ∧
    (a % PartialPosition.ty.align ≠ 0 →
      PartialPosition.store m a p = .ub ∧ PartialPosition.load m a = .ub) := by
  have hsz := PartialPosition.size_ge
  refine ⟨fun ha hm => ?_, fun ha => ?_⟩
  · refine ⟨_, PartialPosition.store_eq p ha (accessible_mono hm hsz), ?_, ?_, ?_⟩
    · exact PartialPosition.load_of_fields ha
        (fun f hf k hk => overlays_in p.fieldBytes_pairwise hf hk)
    · intro x hx
      apply overlays_out
      intro f hf
      have := p.fieldBytes_end f hf
      omega
    · exact overlays_isSome p.fieldBytes_end (accessible_mono hm hsz)
  · unfold PartialPosition.store PartialPosition.load
    rw [if_pos ha, if_pos ha]
    exact ⟨rfl, rfl⟩

theorem arrBytes_getElem {α : Type} {n w : Nat} {f : α → List U8} (hf : ∀ a, (f a).length = w)
    (v : Vector α n) {i j : Nat} (hi : i < n) (hj : j < w) :
    (arrBytes f v)[i * w + j]? = (f v[i])[j]? := by
  have h := flatMap_slice hf v.toList i (by rw [Vector.length_toList]; exact hi)
  rw [Vector.getElem_toList] at h
  rw [← h, List.getElem?_take_of_lt hj, List.getElem?_drop]; rfl

/-- C68: what a C program finds when it looks into the fields itself.  `side` is the encoded side
to move, `board[i]` encodes `piece_at` the square with index `i + 1`, `hands[c]._0[i]` is the
number of pieces of kind `i + 1` in the hand of colour `c + 1`. -/
theorem C68_fields [Profile] {m m' : Mem} {a : Nat} {p : PartialPosition}
    (hm : m.Accessible a PartialPosition.ty.size) (h : PartialPosition.store m a p = .ok m') :
    m' a = some p.side_to_move.toU8 ∧
    (∀ s : Square, s.Valid → ∃ w o, m' (a + 20 + (s.val.toNat - 1)) = some w.val ∧
      p.piece_at s = .ok o ∧ OptionPiece.Encodes w o) ∧
    ∀ c : Color, ∀ k : PieceKind, k.InHand → ∃ hd n, p.hand_of_a_player c = .ok hd ∧
      hd.count k = .ok (some n) ∧
      m' (a + 4 + 8 * (c.toU8.toNat - 1) + (k.toU8.toNat - 1)) = some n := by
  have ha : a % PartialPosition.ty.align = 0 := by
    apply Classical.byContradiction
    intro ha
    rw [((C68_roundtrip m a p).2 ha).1] at h
    cases h
  rw [PartialPosition.store_eq p ha (accessible_mono hm PartialPosition.size_ge)] at h
  cases h
  have get : ∀ f ∈ p.fieldBytes, ∀ k v, f.2[k]? = some v →
      overlays m a p.fieldBytes (a + f.1 + k) = some v := by
    intro f hf k v hv
    obtain ⟨hk, e⟩ := List.getElem?_eq_some_iff.1 hv
    rw [overlays_in p.fieldBytes_pairwise hf hk, e]
  refine ⟨?_, ?_, ?_⟩
  · exact get (0, intBytes 1 p.side.toU8) (by simp [PartialPosition.fieldBytes]) 0 _
      (by rw [intBytes_one]; rfl)
  · intro s hs
    have hi := Square.idx0_lt hs
    refine ⟨p.board[s.idx0], _, ?_, PartialPosition.piece_at_ok p hs, ?_⟩
    · apply get (20, arrBytes (fun x => intBytes 1 x.val) p.board)
        (by simp [PartialPosition.fieldBytes])
      have := arrBytes_getElem (w := 1) (f := fun x : OptionPiece => intBytes 1 x.val)
        (fun _ => intBytes_length _ _) p.board hi (j := 0) (by omega)
      rw [Nat.mul_one, Nat.add_zero, intBytes_one] at this
      exact this
    · rw [PartialPosition.cell, dif_pos hi]; exact OptionPiece.encodes_toOption _
  · intro c k hk
    have hk8 : k.idx0 < 8 := by have := (Hand.inHand_iff k).1 hk; omega
    refine ⟨_, (p.handOf c).cell k hk, PartialPosition.hand_of_a_player_ok p c,
      by rw [Hand.count_ok, dif_pos hk], ?_⟩
    have hc : c.toU8.toNat - 1 = c.idx0 := by cases c <;> rfl
    have := arrBytes_getElem Hand.bytes_length p.hands c.idx0_lt (j := k.idx0) hk8
    have h2 := get (4, arrBytes Hand.bytes p.hands) (by simp [PartialPosition.fieldBytes])
      (c.idx0 * 8 + k.idx0) ((p.handOf c).cell k hk) (by
        show (arrBytes Hand.bytes p.hands)[_]? = _
        rw [this, Hand.bytes, Vector.getElem?_toList, Vector.getElem?_eq_getElem hk8]; rfl)
    rw [hc, Nat.mul_comm 8, Nat.add_assoc (a + 4)]
    exact h2

/-- C68: comparing two structs with `memcmp` never calls different positions equal. -/
theorem C68_memcmp [Profile] {m : Mem} {a b : Nat} {p q : PartialPosition}
    (h1 : m.Accessible a PartialPosition.ty.size) (h2 : m.Accessible b PartialPosition.ty.size)
    (hp : PartialPosition.load m a = .ok p) (hq : PartialPosition.load m b = .ok q)
    (h : memcmp m a b PartialPosition.ty.size = .ok 0) : p = q := by
  have al : ∀ {x r}, PartialPosition.load m x = .ok r → x % PartialPosition.ty.align = 0 := by
    intro x r hx
    apply Classical.byContradiction
    intro hn
    rw [((C68_roundtrip m x r).2 hn).2] at hx
    cases hx
  obtain ⟨r, e, h3, _⟩ := C51_memcmp h1 h2
  rw [h] at e
  cases e
  have := PartialPosition.load_congr (al hp) (al hq)
    (fun k hk => h3.1 rfl k (Nat.lt_of_lt_of_le hk PartialPosition.size_ge))
  rw [hp, hq] at this
  exact Res.ok.inj this

/-- C68, the converse is false: because of the padding after `side`, two structs that hold the same
position (any one) can differ under `memcmp`. -/
theorem C68_refuted_memcmp [Profile] (p : PartialPosition) :
    ∃ (m : Mem) (a b : Nat), PartialPosition.load m a = .ok p ∧ PartialPosition.load m b = .ok p ∧
      ∃ r, memcmp m a b PartialPosition.ty.size = .ok r ∧ r ≠ 0 := by
  have hal : 368 % PartialPosition.ty.align = 0 := by
    rw [C68_layout.2.2.2.2.2]; split <;> rfl
  have hsz : PartialPosition.ty.size ≤ 368 := by
    rw [C68_layout.2.2.2.2.2]; split <;> decide
  have hge := PartialPosition.size_ge
  let m0 : Mem := fun x => some (if x < 368 then 0 else 1)
  have acc : ∀ a n, m0.Accessible a n := fun a n k _ => by show some _ ≠ none; exact Option.some_ne_none _
  obtain ⟨m1, s1, l1, f1, d1⟩ := (C68_roundtrip m0 0 p).1 (Nat.zero_mod _) (acc _ _)
  have acc1 : ∀ a n, m1.Accessible a n := fun a n k hk => (d1 _).2 (acc a n k hk)
  obtain ⟨m2, s2, l2, f2, d2⟩ := (C68_roundtrip m1 368 p).1 hal (acc1 _ _)
  have acc2 : ∀ a n, m2.Accessible a n := fun a n k hk => (d2 _).2 (acc1 a n k hk)
  refine ⟨m2, 0, 368, ?_, l2, ?_⟩
  · rw [← l1]
    exact PartialPosition.load_congr (Nat.zero_mod _) (Nat.zero_mod _) (fun k hk => f2 _ (by omega))
  obtain ⟨r, e, h3, _⟩ := C51_memcmp (acc2 0 PartialPosition.ty.size) (acc2 368 PartialPosition.ty.size)
  refine ⟨r, e, fun hr => ?_⟩
  have h := h3.1 hr 1 (by omega)
  have gap : ∀ (m : Mem) a, a % PartialPosition.ty.align = 0 → (∀ a n, m.Accessible a n) →
      ∀ m', PartialPosition.store m a p = .ok m' → m' (a + 1) = m (a + 1) := by
    intro m a ha hm m' hs
    rw [PartialPosition.store_eq p ha (hm _ _)] at hs
    cases hs
    apply overlays_out
    intro f hf
    have h : (f.1, f.2.length) ∈ p.fieldBytes.map (fun f => (f.1, f.2.length)) :=
      List.mem_map.2 ⟨f, hf, rfl⟩
    rw [PartialPosition.fieldBytes_lengths] at h
    have : ∀ g ∈ [(0, 1), (2, 2), (4, 16), (20, 81), (104, 32), (136, 224), (360, 2), (362, 2)],
        1 < g.1 ∨ g.1 + g.2 ≤ 1 := by decide
    have := this _ h
    simp only at this
    omega
  rw [gap m1 368 hal acc1 m2 s2, f2 (0 + 1) (by omega), f1 (368 + 1) (by omega),
    gap m0 0 (Nat.zero_mod _) acc m1 s1] at h
  exact absurd h (by decide)

/-! ### Programs -/

section
variable [P : Profile]

/-- Memory agrees with the values. -/
structure CInv (fr : CFrame) (nv nb : Nat) (I : List Nat) (m0 m : Mem) (v : CVals) : Prop where
  dom : ∀ x, m x ≠ none ↔ m0 x ≠ none
  out : ∀ a, fr.Outside nv nb a → m a = m0 a
  ini : ∀ x ∈ I, x < nv ∧ ∃ p, v.pos x = some p
  pos : ∀ x p, v.pos x = some p → x < nv ∧ GameReach p ∧ PartialPosition.load m (fr.var x) = .ok p
  txt : ∀ b t, v.txt b = some t → b < nb ∧ t.length < 139 ∧ m.CString (fr.buf b) t

theorem CInv.storePos {fr : CFrame} {nv nb : Nat} {I : List Nat} {m0 m : Mem} {v : CVals}
    (fit : fr.Fits nv nb m0) (h : CInv fr nv nb I m0 m v) {x : Nat} (hx : x < nv) {m' : Mem}
    {p : PartialPosition} (hp : GameReach p)
    (dom : ∀ a, m' a ≠ none ↔ m a ≠ none)
    (out : ∀ a, a < fr.var x ∨ fr.var x + PartialPosition.ty.size ≤ a → m' a = m a)
    (ld : PartialPosition.load m' (fr.var x) = .ok p) :
    CInv fr nv nb (x :: I) m0 m' (v.setPos x p) := by
  have hty : CTy.struct headerFields = PartialPosition.ty := C68_layout.2.2.2.2.1
  have hge := PartialPosition.size_ge
  refine ⟨fun a => (dom a).trans (h.dom a), ?_, ?_, ?_, ?_⟩
  · intro a ha
    rw [out a (by have := ha.1 x hx; rwa [hty] at this), h.out a ha]
  · intro y hy
    by_cases e : y = x
    · subst e; exact ⟨hx, p, by simp [CVals.setPos]⟩
    · rcases List.mem_cons.1 hy with hy | hy
      · exact absurd hy e
      · obtain ⟨h1, q, h2⟩ := h.ini y hy
        exact ⟨h1, q, by simp only [CVals.setPos, if_neg e, h2]⟩
  · intro y q hq
    by_cases e : y = x
    · subst e
      simp only [CVals.setPos, if_true] at hq
      cases hq
      exact ⟨hx, hp, ld⟩
    · simp only [CVals.setPos, if_neg e] at hq
      obtain ⟨h1, h2, h3⟩ := h.pos y q hq
      refine ⟨h1, h2, ?_⟩
      rw [← h3]
      have ha := fit.align y h1
      rw [hty] at ha
      refine PartialPosition.load_congr ha ha fun k hk => out _ ?_
      have := fit.vars y h1 x hx e
      rw [hty] at this
      omega
  · intro b t ht
    obtain ⟨h1, h2, h3, h4⟩ := h.txt b t ht
    have hd := fit.apart x hx b h1
    rw [hty] at hd
    refine ⟨h1, h2, fun i hi => ?_, ?_⟩
    · rw [out _ (by omega)]; exact h3 i hi
    · rw [out _ (by omega)]; exact h4

theorem CInv.mono {fr : CFrame} {nv nb : Nat} {I J : List Nat} {m0 m : Mem} {v : CVals}
    (h : CInv fr nv nb I m0 m v) (hJ : ∀ x ∈ J, x ∈ I) : CInv fr nv nb J m0 m v :=
  ⟨h.dom, h.out, fun x hx => h.ini x (hJ x hx), h.pos, h.txt⟩

theorem game_text {p : PartialPosition} (h : GameReach p) :
    ∃ t, p.to_sfen_owned = .ok t ∧ t.length < 139 := by
  have ok := reach_ok (game_reach h)
  have ht : ∀ k, p.total k = pieceSupply k := by
    intro k
    have := C30_conservation p h k
    rw [onBoard_eq, inHand_eq, inHand_eq] at this
    exact this
  exact ⟨_, to_sfen_owned_ok ok, by have := sfen_le_supply ok ht; omega⟩

theorem CInv.step {fr : CFrame} {nv nb : Nat} {I : List Nat} {m0 m : Mem} {v : CVals}
    (fit : fr.Fits nv nb m0) (h : CInv fr nv nb I m0 m v) {c : CStmt} (hc : c.WellFormed nv nb I) :
    ∃ m' v' o, c.exec fr m = .ok (m', o) ∧ c.mean v = some (v', o) ∧
      CInv fr nv nb (c.inits ++ I) m0 m' v' := by
  have hty : CTy.struct headerFields = PartialPosition.ty := C68_layout.2.2.2.2.1
  have hge := PartialPosition.size_ge
  have al : ∀ x < nv, fr.var x % PartialPosition.ty.align = 0 := by
    intro x hx; have := fit.align x hx; rwa [hty] at this
  have acc : ∀ x < nv, m.Accessible (fr.var x) PartialPosition.ty.size := by
    intro x hx k hk
    have := fit.var x hx
    rw [hty] at this
    exact (h.dom _).2 (this k hk)
  cases c with
  | startpos x =>
    obtain ⟨p, e, _⟩ := startpos_total
    obtain ⟨m', s, l, f, d⟩ := (C68_roundtrip m (fr.var x) p).1 (al x hc) (acc x hc)
    refine ⟨m', v.setPos x p, none, ?_, ?_, h.storePos fit hc ⟨p, [], e, .start⟩ d f l⟩
    · simp only [CStmt.exec, startpos_ptr, e, Res.bind_ok, s, Res.pure_eq]
    · simp only [CStmt.mean, e]
  | move x mv =>
    obtain ⟨hx, hmv⟩ := hc
    obtain ⟨hx, p, hp⟩ := h.ini x hx
    obtain ⟨_, hg, l0⟩ := h.pos x p hp
    obtain ⟨c, ec, hc⟩ := CompactMove.ofMove_ok hmv
    have em := CompactMove.toMove_of_encodes hmv hc
    have key : ∃ q r, p.make_move mv = .ok (q, r) ∧ GameReach q := by
      obtain ⟨p0, ms, e0, hf⟩ := hg
      rcases PartialPosition.make_move_ok (reach_ok (game_reach ⟨p0, ms, e0, hf⟩)) hmv with
        ⟨_, q, e, _⟩ | ⟨_, e⟩
      · exact ⟨q, _, e, p0, _, e0, .accept hf hmv e⟩
      · exact ⟨p, _, e, p0, _, e0, .reject hf hmv e⟩
    obtain ⟨q, r, e, hq⟩ := key
    obtain ⟨m', s, l, f, d⟩ := (C68_roundtrip m (fr.var x) q).1 (al x hx) (acc x hx)
    refine ⟨m', v.setPos x q, some r.isSome, ?_, ?_,
      (h.storePos fit hx hq d f l).mono (fun y hy => List.mem_cons_of_mem _ hy)⟩
    · simp only [CStmt.exec, make_compact_move_ptr, ec, Res.bind_ok, l0,
        PartialPosition.make_compact_move, em, e, Res.pure_eq, s]
    · simp only [CStmt.mean, hp, e]
  | assign x y =>
    obtain ⟨hx, hy⟩ := hc
    obtain ⟨hy, p, hp⟩ := h.ini y hy
    obtain ⟨_, hg, l0⟩ := h.pos y p hp
    have key : ∃ m', memcpy m (fr.var x) (fr.var y) PartialPosition.ty.size = .ok (m', fr.var x) ∧
        (∀ k < PartialPosition.ty.size, m' (fr.var x + k) = m (fr.var y + k)) ∧
        ∀ a, (∀ k < PartialPosition.ty.size, a ≠ fr.var x + k) → m' a = m a := by
      by_cases e : x = y
      · subst e; exact C51_memcpy_downwards (acc x hx) (acc x hx) (Nat.le_refl _)
      · refine C51_memcpy (acc y hy) (acc x hx) ?_
        have := fit.vars x hx y hy e
        rw [hty] at this
        intro i hi j hj
        omega
    obtain ⟨m', e, c1, c2⟩ := key
    refine ⟨m', v.setPos x p, none, ?_, ?_, h.storePos fit hx hg ?_ ?_ ?_⟩
    · simp only [CStmt.exec, assign_ptr, e, Res.bind_ok, Res.pure_eq]
    · simp only [CStmt.mean, hp]
    · intro a
      by_cases ha : ∃ k < PartialPosition.ty.size, a = fr.var x + k
      · obtain ⟨k, hk, rfl⟩ := ha
        rw [c1 k hk]
        exact ⟨fun _ => acc x hx k hk, fun _ => acc y hy k hk⟩
      · rw [c2 a (fun k hk e => ha ⟨k, hk, e⟩)]
    · intro a ha
      exact c2 a (fun k hk e => by omega)
    · rw [← l0]
      exact PartialPosition.load_congr (al x hx) (al y hy) (fun k hk => c1 k (by omega))
  | sfen x b =>
    obtain ⟨hx, hb⟩ := hc
    obtain ⟨hx, p, hp⟩ := h.ini x hx
    obtain ⟨_, hg, l0⟩ := h.pos x p hp
    obtain ⟨t, ht, hl⟩ := game_text hg
    obtain ⟨t', ht', _, hw, _⟩ := C38_memory p (game_reach hg) m (fr.buf b)
    rw [ht] at ht'
    cases ht'
    obtain ⟨m', e, w1, w2, w3⟩ := hw (fun i hi => (h.dom _).2 (fit.buf b hb i (by omega)))
    have w4 : ∀ a, a < fr.buf b ∨ fr.buf b + 139 ≤ a → m' a = m a := fun a ha => w3 a (by omega)
    refine ⟨m', v.setTxt b t, none, ?_, ?_, ?_⟩
    · simp only [CStmt.exec, to_sfen_c_ptr, l0, Res.bind_ok, e, Res.pure_eq]
    · simp only [CStmt.mean, hp, ht]
    · refine ⟨?_, ?_, h.ini, ?_, ?_⟩
      · intro a
        refine Iff.trans ?_ (h.dom a)
        by_cases ha : a < fr.buf b ∨ fr.buf b + t.length < a
        · rw [w3 a ha]
        · obtain ⟨i, rfl⟩ : ∃ i, a = fr.buf b + i := ⟨a - fr.buf b, by omega⟩
          refine ⟨fun _ => (h.dom _).2 (fit.buf b hb i (by omega)), fun _ => ?_⟩
          by_cases hi : i < t.length
          · rw [w1 i hi]; exact Option.some_ne_none _
          · have : i = t.length := by omega
            subst this
            rw [w2]; exact Option.some_ne_none _
      · intro a ha
        rw [w4 a (ha.2 b hb), h.out a ha]
      · intro y q hq
        obtain ⟨h1, h2, h3⟩ := h.pos y q hq
        refine ⟨h1, h2, ?_⟩
        rw [← h3]
        refine PartialPosition.load_congr (al y h1) (al y h1) fun k hk => w4 _ ?_
        have := fit.apart y h1 b hb
        rw [hty] at this
        omega
      · intro b' t' ht'
        by_cases e' : b' = b
        · subst e'
          simp only [CVals.setTxt, if_true] at ht'
          cases ht'
          exact ⟨hb, hl, w1, w2⟩
        · simp only [CVals.setTxt, if_neg e'] at ht'
          obtain ⟨h1, h2, h3, h4⟩ := h.txt b' t' ht'
          have hd := fit.bufs b' h1 b hb e'
          refine ⟨h1, h2, fun i hi => ?_, ?_⟩
          · rw [w4 _ (by omega)]; exact h3 i hi
          · rw [w4 _ (by omega)]; exact h4

/-- C68: a C program that initialises its `PartialPosition` variables with
`PartialPosition_startpos`, plays moves on them, copies them by assignment and writes them into
buffers of the documented size runs without undefined behaviour or panic, and does exactly what the
Rust functions do to separate values: the calls return the same results, every variable holds its
value, every buffer its text as a C string, and no other byte of memory has changed. -/
theorem C68_program {fr : CFrame} {nv nb : Nat} {m : Mem} (fit : fr.Fits nv nb m)
    {cs : List CStmt} (h : CWellFormed nv nb [] cs) :
    ∃ m' v os, CExec fr m cs = .ok (m', os) ∧ CMean .none cs = some (v, os) ∧
      (∀ x p, v.pos x = some p → PartialPosition.load m' (fr.var x) = .ok p) ∧
      (∀ b t, v.txt b = some t → m'.CString (fr.buf b) t) ∧
      ∀ a, fr.Outside nv nb a → m' a = m a := by
  suffices key : ∀ cs I m1 v1, CInv fr nv nb I m m1 v1 → CWellFormed nv nb I cs →
      ∃ m' v os J, CExec fr m1 cs = .ok (m', os) ∧ CMean v1 cs = some (v, os) ∧
        CInv fr nv nb J m m' v by
    obtain ⟨m', v, os, J, e1, e2, hi⟩ := key cs [] m .none
      ⟨fun _ => Iff.rfl, fun _ _ => rfl, fun x hx => absurd hx List.not_mem_nil,
        fun x p e => absurd e (by simp [CVals.none]), fun b t e => absurd e (by simp [CVals.none])⟩ h
    exact ⟨m', v, os, e1, e2, fun x p e => (hi.pos x p e).2.2, fun b t e => (hi.txt b t e).2.2,
      hi.out⟩
  intro cs
  induction cs with
  | nil => intro I m1 v1 hi _; exact ⟨m1, v1, [], I, rfl, rfl, hi⟩
  | cons c cs ih =>
    intro I m1 v1 hi hw
    obtain ⟨m2, v2, o, e1, e2, hi2⟩ := hi.step fit hw.1
    obtain ⟨m', v, os, J, e3, e4, hi3⟩ := ih _ m2 v2 hi2 hw.2
    refine ⟨m', v, o :: os, J, ?_, ?_, hi3⟩
    · simp only [CExec, e1, Res.bind_ok, e3, Res.pure_eq]
    · simp only [CMean, e2, e4]

/-- Non-vacuity: two variables and a buffer, a move on the copy, and the text of the original. -/
example : ∃ (fr : CFrame) (m : Mem) (m' : Mem) (os : List (Option Bool)) (t : List U8),
    fr.Fits 2 1 m ∧
    CExec fr m [.startpos 0, .assign 1 0, .move 1 (.Normal ⟨61⟩ ⟨60⟩ false), .sfen 0 0] =
      .ok (m', os) ∧ sp0.to_sfen_owned = .ok t ∧ m'.CString (fr.buf 0) t := by
  let fr : CFrame := ⟨fun x => 368 * x, fun _ => 1000⟩
  let m : Mem := fun _ => some 0
  have hty : CTy.struct headerFields = PartialPosition.ty := C68_layout.2.2.2.2.1
  have hal : ∀ x, 368 * x % PartialPosition.ty.align = 0 := by
    intro x
    rw [C68_layout.2.2.2.2.2]; split <;> simp only <;> omega
  have hsz : PartialPosition.ty.size ≤ 368 := by
    rw [C68_layout.2.2.2.2.2]; split <;> decide
  have fit : fr.Fits 2 1 m := by
    refine ⟨fun x _ => ?_, fun _ _ _ _ => Option.some_ne_none _, fun _ _ _ _ => Option.some_ne_none _,
      fun x hx y hy e => ?_, fun b hb c hc e => ?_, fun x hx b hb => ?_⟩
    · rw [hty]; exact hal x
    · rw [hty]; show 368 * x + _ ≤ 368 * y ∨ 368 * y + _ ≤ 368 * x; omega
    · omega
    · rw [hty]; show 368 * x + _ ≤ 1000 ∨ 1000 + _ ≤ 368 * x; omega
  have hmv : Move.Valid (.Normal ⟨61⟩ ⟨60⟩ false) := by decide
  obtain ⟨m', v, os, e1, e2, _, h, _⟩ := C68_program fit
    (cs := [.startpos 0, .assign 1 0, .move 1 (.Normal ⟨61⟩ ⟨60⟩ false), .sfen 0 0])
    ⟨by show 0 < 2; omega, ⟨by show 1 < 2; omega, by simp [CStmt.inits]⟩,
      ⟨by simp [CStmt.inits], hmv⟩, ⟨by simp [CStmt.inits], by omega⟩, trivial⟩
  obtain ⟨t, ht, _⟩ := game_text ⟨sp0, [], startpos_ok, .start⟩
  refine ⟨fr, m, m', os, t, fit, e1, ht, h 0 t ?_⟩
  obtain ⟨q, r, e⟩ : ∃ q r, sp0.make_move (.Normal ⟨61⟩ ⟨60⟩ false) = .ok (q, r) := by
    rcases PartialPosition.make_move_ok sp0_ok hmv with ⟨_, q, e, _⟩ | ⟨_, e⟩
    · exact ⟨q, _, e⟩
    · exact ⟨_, _, e⟩
  simp only [CMean, CStmt.mean, startpos_ok, CVals.setPos, CVals.setTxt, if_true, e] at e2
  simp [ht] at e2
  rw [← e2.1]
  simp

end
end ShogiCore
