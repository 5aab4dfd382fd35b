import Verif.Spec.Bytes
import Verif.Props.Recorder

/- Lemmas about positions as bytes: the values of `RecStep` are found in the bytes of `ByteStep`. -/

namespace ShogiCore

variable [P : Profile]

/-! ### Stores -/

/-- The arena after some stores. -/
abbrev applyAll (f : Nat → U8) (ps : List ByteStore) : Nat → U8 := ps.foldl storeByte f

omit P in
theorem applyAll_congr (ps : List ByteStore) {f g : Nat → U8} {x : Nat} (h : f x = g x) :
    applyAll f ps x = applyAll g ps x := by
  induction ps generalizing f g with
  | nil => exact h
  | cons p ps ih =>
    refine ih ?_
    simp only [storeByte, h]

omit P in
theorem applyAll_outside {ps : List ByteStore} {x : Nat} (h : ∀ s ∈ ps, s.1 ≠ x) (f : Nat → U8) :
    applyAll f ps x = f x := by
  induction ps generalizing f with
  | nil => rfl
  | cons p ps ih =>
    refine (ih (fun s hs => h s (by simp [hs])) _).trans ?_
    simp only [storeByte, if_neg (Ne.symm (h p (by simp)))]

omit P in
theorem mem_storesAt {a : Nat} {bs : List U8} {s : ByteStore} (h : s ∈ storesAt a bs) :
    a ≤ s.1 ∧ s.1 < a + bs.length := by
  induction bs generalizing a with
  | nil => simp [storesAt] at h
  | cons b bs ih =>
    simp only [storesAt, List.mem_cons] at h
    rcases h with rfl | h
    · simp
    · have := ih h
      simp only [List.length_cons]
      omega

omit P in
theorem storesAt_outside {a x : Nat} {bs : List U8} (h : x < a ∨ a + bs.length ≤ x) (f : Nat → U8) :
    applyAll f (storesAt a bs) x = f x :=
  applyAll_outside (fun s hs => by have := mem_storesAt hs; omega) f

omit P in
theorem storesAt_inside (a : Nat) (bs : List U8) (f : Nat → U8) (k : Nat) (h : k < bs.length) :
    applyAll f (storesAt a bs) (a + k) = bs[k] := by
  induction bs generalizing a f k with
  | nil => simp at h
  | cons b bs ih =>
    show applyAll (storeByte f (a, b)) (storesAt (a + 1) bs) (a + k) = _
    cases k with
    | zero =>
      rw [storesAt_outside (by omega)]
      simp [storeByte]
    | succ k =>
      have := ih (a + 1) (storeByte f (a, b)) k (by simpa using h)
      rw [show a + (k + 1) = a + 1 + k by omega, this]
      rfl

omit P in
theorem bytesAt_length (f : Nat → U8) (a n : Nat) : (bytesAt f a n).length = n := by
  simp [bytesAt]

omit P in
theorem bytesAt_getElem (f : Nat → U8) (a n k : Nat) (h : k < (bytesAt f a n).length) :
    (bytesAt f a n)[k] = f (a + k) := by
  simp [bytesAt]

omit P in
theorem bytesAt_congr {f g : Nat → U8} {a b n : Nat} (h : ∀ k < n, f (a + k) = g (b + k)) :
    bytesAt f a n = bytesAt g b n :=
  List.map_congr_left fun k hk => h k (List.mem_range.1 hk)

omit P in
theorem bytesAt_stored (a : Nat) (bs : List U8) (f : Nat → U8) {n : Nat} (h : bs.length = n) :
    bytesAt (applyAll f (storesAt a bs)) a n = bs := by
  subst h
  refine List.ext_getElem (bytesAt_length _ _ _) fun k h1 h2 => ?_
  rw [bytesAt_getElem, storesAt_inside a bs f k h2]

omit P in
theorem slot_lt {k n z x : Nat} (h : k < n) (hx : x < z) : k * z + x < n * z := by
  have := Nat.mul_le_mul_right z h
  rw [Nat.succ_mul] at this
  omega

/-! ### The simulation -/

/-- The bytes `f` of position `a`, in blocks that are its own, hold `r`. -/
structure Holds (C : Compiler) (A : AllocState) (used bufs : List Nat) (own : Nat → Option Nat)
    (f : Nat → U8) (a : Nat) (r : Recorder) (h : PositionFields) : Prop where
  block : ∃ i ∈ used, own i = some a ∧ A.Returned i C.position a
  read : C.fields (bytesAt f a C.position.size.toNat) = some h
  initial : h.initial = r.pos.initial
  inner : h.inner = r.pos.inner
  cap : h.cap = r.cap
  len : h.len = r.pos.moves.length
  le : h.len ≤ h.cap
  buf : h.cap ≠ 0 → ∃ j ∈ bufs, own j = some a ∧ A.Returned j (C.move.array h.cap) h.ptr ∧
    h.cap * C.move.size.toNat < 2 ^ (Profile.bits - 1)
  moves : ∀ k (hk : k < r.pos.moves.length),
    C.moveOf (bytesAt f (h.ptr + k * C.move.size.toNat) C.move.size.toNat) = some r.pos.moves[k]

/-- The byte at `x` belongs to position `a`. -/
def Mine (A : AllocState) (own : Nat → Option Nat) (a x : Nat) : Prop :=
  ∃ k, own k = some a ∧ A.Owns k x

theorem Holds.congr {C : Compiler} {A A' : AllocState} {used used' bufs bufs' : List Nat}
    {own own' : Nat → Option Nat} {f f' : Nat → U8} {a : Nat} {r : Recorder} {h : PositionFields}
    (H : Holds C A used bufs own f a r h)
    (hA : ∀ k l o, A.Returned k l o → A'.Returned k l o) (hu : ∀ i ∈ used, i ∈ used')
    (hb : ∀ i ∈ bufs, i ∈ bufs') (ho : ∀ k, own k = some a → own' k = some a)
    (hf : ∀ x, Mine A own a x → f' x = f x) : Holds C A' used' bufs' own' f' a r h := by
  obtain ⟨i, hi, oi, ri⟩ := H.block
  refine ⟨⟨i, hu i hi, ho i oi, hA _ _ _ ri⟩, ?_, H.initial, H.inner, H.cap, H.len, H.le, ?_, ?_⟩
  · rw [← H.read]
    exact congrArg _ (bytesAt_congr fun k hk => hf _ ⟨i, oi, _, _, ri, by omega, by omega⟩)
  · intro hc
    obtain ⟨j, hj, oj, rj, hsz⟩ := H.buf hc
    exact ⟨j, hb j hj, ho j oj, hA _ _ _ rj, hsz⟩
  · intro k hk
    have h1 := H.len
    have h2 := H.le
    obtain ⟨j, hj, oj, rj, hsz⟩ := H.buf (by omega)
    rw [← H.moves k hk]
    refine congrArg _ (bytesAt_congr fun x hx => hf _ ⟨j, oj, _, _, rj, by omega, ?_⟩)
    rw [array_size hsz]
    have := slot_lt (show k < h.cap by omega) hx
    omega

/-- Byte state and value state correspond. -/
structure Sim (C : Compiler) (own : Nat → Option Nat) (b : ByteState) (s : RecState) : Prop where
  alloc : b.alloc = s.alloc
  used : b.used = s.used
  bufs : b.bufs = s.bufs
  owned : ∀ k a, own k = some a → k ∈ b.used ∨ k ∈ b.bufs
  objs : ∀ a, (b.live a = none ∧ s.objs a = none) ∨
    ∃ ps r h, b.live a = some ps ∧ s.objs a = some r ∧
      Holds C b.alloc b.used b.bufs own (applyAll b.arena ps) a r h ∧
      ∀ x ∈ ps, Mine b.alloc own a x.1

/-- Bytes of different owners are different. -/
theorem mine_ne {A : AllocState} (hA : AllocReachable A) {own : Nat → Option Nat} {a b x y : Nat}
    (hab : a ≠ b) (hx : Mine A own a x) (hy : Mine A own b y) : x ≠ y := by
  rintro rfl
  obtain ⟨k, hk, ok⟩ := hx
  obtain ⟨j, hj, oj⟩ := hy
  have : k ≠ j := by
    rintro rfl
    rw [hk] at hj
    exact hab (Option.some.inj hj)
  exact C49_disjoint hA this ok oj

/-- A byte of one block is not in another. -/
theorem block_ne {A : AllocState} (hA : AllocReachable A) {i j : Nat} (hij : i ≠ j) {l l' : Layout}
    {a b x : Nat} (hi : A.Returned i l a) (hj : A.Returned j l' b) (h1 : a ≤ x)
    (h2 : x < a + l.size.toNat) : x < b ∨ b + l'.size.toNat ≤ x := by
  apply Classical.byContradiction
  intro hn
  exact C49_disjoint hA hij ⟨l, a, hi, h1, h2⟩ ⟨l', b, hj, by omega, by omega⟩

omit P in
theorem not_both {used bufs : List Nat} (h : (used ++ bufs).Nodup) {i j : Nat} (hi : i ∈ used)
    (hj : j ∈ bufs) : i ≠ j := (List.nodup_append.1 h).2.2 i hi j hj

/-- New contents of the position itself; those of the buffer stay. -/
theorem Holds.put {C : Compiler} {A : AllocState} {used bufs : List Nat} {own : Nat → Option Nat}
    {f : Nat → U8} {a : Nat} {r : Recorder} {h h' : PositionFields} {bs : List U8}
    (H : Holds C A used bufs own f a r h) (hA : AllocReachable A) (hn : (used ++ bufs).Nodup)
    (hl : bs.length = C.position.size.toNat) (hr : C.fields bs = some h')
    (e1 : h'.initial = h.initial) (e2 : h'.ptr = h.ptr) (e3 : h'.cap = h.cap) (e4 : h'.len = h.len) :
    Holds C A used bufs own (applyAll f (storesAt a bs)) a
      ⟨⟨r.pos.initial, h'.inner, r.pos.moves⟩, r.cap⟩ h' := by
  refine ⟨H.block, ?_, e1.trans H.initial, rfl, e3.trans H.cap, e4.trans H.len, ?_, ?_, ?_⟩
  · rw [bytesAt_stored _ _ _ hl, hr]
  · rw [e3, e4]; exact H.le
  · rw [e3, e2]; exact H.buf
  · intro k hk
    have hk : k < r.pos.moves.length := hk
    have h1 := H.len
    have h2 := H.le
    obtain ⟨i, hi, -, ri⟩ := H.block
    obtain ⟨j, hj, -, rj, hsz⟩ := H.buf (by omega)
    show _ = some r.pos.moves[k]
    rw [← H.moves k hk, e2]
    refine congrArg _ (bytesAt_congr fun x hx => storesAt_outside ?_ _)
    rw [hl]
    have := slot_lt (show k < h.cap by omega) hx
    exact block_ne hA (not_both hn hi hj).symm rj ri (by omega) (by rw [array_size hsz]; omega)

/-- One more move in the buffer. -/
theorem Holds.push {C : Compiler} {A : AllocState} {used bufs : List Nat} {own : Nat → Option Nat}
    {f : Nat → U8} {a : Nat} {r : Recorder} {h h' : PositionFields} {ms bs : List U8} {m : Move}
    (H : Holds C A used bufs own f a r h) (hA : AllocReachable A) (hn : (used ++ bufs).Nodup)
    (hm : ms.length = C.move.size.toNat) (hmr : C.moveOf ms = some m) (hne : h.len ≠ h.cap)
    (hl : bs.length = C.position.size.toNat) (hr : C.fields bs = some h')
    (e1 : h'.initial = h.initial) (e2 : h'.ptr = h.ptr) (e3 : h'.cap = h.cap)
    (e4 : h'.len = h.len + 1) :
    Holds C A used bufs own
      (applyAll f (storesAt (h.ptr + h.len * C.move.size.toNat) ms ++ storesAt a bs)) a
      ⟨⟨r.pos.initial, h'.inner, r.pos.moves ++ [m]⟩, r.cap⟩ h' := by
  rw [applyAll, List.foldl_append]
  have h1 := H.len
  have h2 := H.le
  refine ⟨H.block, ?_, e1.trans H.initial, rfl, e3.trans H.cap, ?_, ?_, ?_, ?_⟩
  · rw [bytesAt_stored _ _ _ hl, hr]
  · simp only [List.length_append, List.length_singleton]; omega
  · omega
  · rw [e3, e2]; exact H.buf
  · intro k hk
    have hk : k < (r.pos.moves ++ [m]).length := hk
    simp only [List.length_append, List.length_singleton] at hk
    obtain ⟨i, hi, -, ri⟩ := H.block
    obtain ⟨j, hj, -, rj, hsz⟩ := H.buf (by omega)
    show _ = some (r.pos.moves ++ [m])[k]
    rw [e2]
    have out : bytesAt (applyAll (applyAll f (storesAt (h.ptr + h.len * C.move.size.toNat) ms))
        (storesAt a bs)) (h.ptr + k * C.move.size.toNat) C.move.size.toNat =
        bytesAt (applyAll f (storesAt (h.ptr + h.len * C.move.size.toNat) ms))
          (h.ptr + k * C.move.size.toNat) C.move.size.toNat := by
      refine bytesAt_congr fun x hx => storesAt_outside ?_ _
      rw [hl]
      have := slot_lt (show k < h.cap by omega) hx
      exact block_ne hA (not_both hn hi hj).symm rj ri (by omega) (by rw [array_size hsz]; omega)
    rw [out]
    by_cases hk' : k < r.pos.moves.length
    · rw [List.getElem_append_left hk', ← H.moves k hk']
      refine congrArg _ (bytesAt_congr fun x hx => storesAt_outside (.inl ?_) _)
      have := slot_lt (show k < h.len by omega) hx
      omega
    · obtain rfl : k = h.len := by omega
      rw [bytesAt_stored _ _ _ hm, hmr]
      simp [h1]

/-- A larger buffer with one more move. -/
theorem Holds.grow {C : Compiler} {A : AllocState} {used bufs : List Nat} {own : Nat → Option Nat}
    {f : Nat → U8} {a : Nat} {r : Recorder} {h h' : PositionFields} {ms bs : List U8} {m : Move}
    (H : Holds C A used bufs own f a r h) (hA : AllocReachable A) {i o c : Nat}
    (hu : i ∉ used) (ri : A.Returned i (C.move.array c) o) (hc : h.cap < c)
    (hsz : c * C.move.size.toNat < 2 ^ (Profile.bits - 1))
    (hm : ms.length = C.move.size.toNat) (hmr : C.moveOf ms = some m) (he : h.len = h.cap)
    (hl : bs.length = C.position.size.toNat) (hr : C.fields bs = some h')
    (e1 : h'.initial = h.initial) (e2 : h'.ptr = o) (e3 : h'.cap = c) (e4 : h'.len = h.len + 1) :
    Holds C A used (bufs ++ [i]) (fun k => if k = i then some a else own k)
      (applyAll f (storesAt o (bytesAt f h.ptr (h.cap * C.move.size.toNat)) ++
        storesAt (o + h.len * C.move.size.toNat) ms ++ storesAt a bs)) a
      ⟨⟨r.pos.initial, h'.inner, r.pos.moves ++ [m]⟩, c⟩ h' := by
  rw [applyAll, List.foldl_append, List.foldl_append]
  have h1 := H.len
  obtain ⟨i0, hi0, o0, r0⟩ := H.block
  have ne : i ≠ i0 := fun e => hu (e ▸ hi0)
  refine ⟨⟨i0, hi0, by rw [if_neg ne.symm, o0], r0⟩, ?_, e1.trans H.initial, rfl, e3, ?_, ?_, ?_, ?_⟩
  · rw [bytesAt_stored _ _ _ hl, hr]
  · simp only [List.length_append, List.length_singleton]; omega
  · omega
  · intro _
    exact ⟨i, by simp, by rw [if_pos rfl], by rw [e3, e2]; exact ri, by rw [e3]; exact hsz⟩
  · intro k hk
    have hk : k < (r.pos.moves ++ [m]).length := hk
    simp only [List.length_append, List.length_singleton] at hk
    show _ = some (r.pos.moves ++ [m])[k]
    rw [e2]
    have out : ∀ g : Nat → U8, bytesAt (applyAll g (storesAt a bs))
        (o + k * C.move.size.toNat) C.move.size.toNat =
        bytesAt g (o + k * C.move.size.toNat) C.move.size.toNat := by
      intro g
      refine bytesAt_congr fun x hx => storesAt_outside ?_ _
      rw [hl]
      have := slot_lt (show k < c by omega) hx
      exact block_ne hA ne ri r0 (by omega) (by rw [array_size hsz]; omega)
    rw [out]
    by_cases hk' : k < r.pos.moves.length
    · rw [List.getElem_append_left hk', ← H.moves k hk']
      refine congrArg _ (bytesAt_congr fun x hx => ?_)
      have h3 := slot_lt (show k < h.len by omega) hx
      refine (storesAt_outside (.inl (by omega)) _).trans ?_
      have h4 := storesAt_inside o (bytesAt f h.ptr (h.cap * C.move.size.toNat)) f _
        (by rw [bytesAt_length, ← he]; exact h3)
      rw [bytesAt_getElem, ← Nat.add_assoc, ← Nat.add_assoc] at h4
      exact h4
    · obtain rfl : k = h.len := by omega
      rw [bytesAt_stored _ _ _ hm, hmr]
      simp [h1]

/-! ### Steps -/

/-- What one call does to the other positions: nothing. -/
theorem Sim.frame {C : Compiler} {own own' : Nat → Option Nat} {b b' : ByteState} {s s' : RecState}
    (S : Sim C own b s) {a d : Nat} (hd : d ≠ a)
    (hA : ∀ k l o, b.alloc.Returned k l o → b'.alloc.Returned k l o)
    (hu : ∀ i ∈ b.used, i ∈ b'.used) (hb : ∀ i ∈ b.bufs, i ∈ b'.bufs)
    (ho : ∀ k, own k = some d → own' k = some d)
    (hl : ∀ d, d ≠ a → b'.live d = b.live d) (hs : ∀ d, d ≠ a → s'.objs d = s.objs d)
    (hf : ∀ x, Mine b.alloc own d x → b'.arena x = b.arena x) :
    (b'.live d = none ∧ s'.objs d = none) ∨
    ∃ ps r h, b'.live d = some ps ∧ s'.objs d = some r ∧
      Holds C b'.alloc b'.used b'.bufs own' (applyAll b'.arena ps) d r h ∧
      ∀ x ∈ ps, Mine b'.alloc own' d x.1 := by
  rw [hl d hd, hs d hd]
  rcases S.objs d with h | ⟨ps, r, h, h1, h2, H, h3⟩
  · exact .inl h
  · refine .inr ⟨ps, r, h, h1, h2, H.congr hA hu hb ho fun x hx => applyAll_congr ps (hf x hx), ?_⟩
    intro x hx
    obtain ⟨k, h4, l, o, h5, h6⟩ := h3 x hx
    exact ⟨k, ho k h4, l, o, hA _ _ _ h5, h6⟩

/-- An idle position. -/
theorem Sim.idle {C : Compiler} {own : Nat → Option Nat} {b : ByteState} {s : RecState}
    (S : Sim C own b s) {a : Nat} (h : b.live a = some []) {h' : PositionFields}
    (hr : C.fields (bytesAt b.arena a C.position.size.toNat) = some h') :
    ∃ r, s.objs a = some r ∧ Holds C b.alloc b.used b.bufs own b.arena a r h' := by
  rcases S.objs a with ⟨h1, _⟩ | ⟨ps, r, h0, h1, h2, H, _⟩
  · rw [h] at h1; cases h1
  · rw [h] at h1
    cases h1
    have : h0 = h' := Option.some.inj (H.read.symm.trans hr)
    exact ⟨r, h2, this ▸ H⟩

/-- `None` so far, for the call of `alloc` that gets an owner. -/
theorem Sim.unowned {C : Compiler} {own : Nat → Option Nat} {b : ByteState} {s : RecState}
    (S : Sim C own b s) {i : Nat} (hu : i ∉ b.used) (hb : i ∉ b.bufs) : own i = none := by
  cases e : own i with
  | none => rfl
  | some c =>
    rcases S.owned i c e with h | h
    · exact absurd h hu
    · exact absurd h hb

section
variable {C : Compiler} {own : Nat → Option Nat} {b : ByteState} {s : RecState}

theorem Sim.alloc_step (S : Sim C own b s) {t : AllocState} (ht : AllocTrans b.alloc t) :
    Sim C own { b with alloc := t } { s with alloc := t } := by
  refine ⟨rfl, S.used, S.bufs, S.owned, fun d => ?_⟩
  exact S.frame (a := d + 1) (by omega) (trans_keeps ht).1 (fun _ h => h) (fun _ h => h)
    (fun _ h => h) (fun _ _ => rfl) (fun _ _ => rfl) (fun _ _ => rfl)

theorem Sim.other (S : Sim C own b s) (hA : AllocReachable s.alloc) {k x : Nat} {l : Layout}
    {o : Usize} (v : U8) (hk : b.alloc.calls[k]? = some ⟨l, .done (some o)⟩) (h1 : o.toNat ≤ x)
    (h2 : x < o.toNat + l.size.toNat) (hu : k ∉ b.used) (hb : k ∉ b.bufs) :
    Sim C own { b with arena := storeByte b.arena (x, v) } s := by
  have hA' : AllocReachable b.alloc := S.alloc ▸ hA
  have keep : ∀ k l o, b.alloc.Returned k l o → b.alloc.Returned k l o := fun _ _ _ h => h
  refine ⟨S.alloc, S.used, S.bufs, S.owned, fun d => ?_⟩
  refine S.frame (a := d + 1) (by omega) keep (fun _ h => h) (fun _ h => h)
    (fun _ h => h) (fun _ _ => rfl) (fun _ _ => rfl) (fun y hy => ?_)
  obtain ⟨j, hj, oj⟩ := hy
  have : k ≠ j := by
    rintro rfl
    rcases S.owned k d hj with h | h
    · exact hu h
    · exact hb h
  have hxy : y ≠ x := by
    rintro rfl
    exact C49_disjoint hA' this ⟨l, _, ⟨o, hk, rfl⟩, h1, h2⟩ oj
  show storeByte b.arena (x, v) y = _
  simp only [storeByte, if_neg hxy]

theorem Sim.store (S : Sim C own b s) (hA : AllocReachable s.alloc) {a : Nat} {p : ByteStore}
    {ps : List ByteStore} (hl : b.live a = some (p :: ps)) :
    Sim C own (ByteState.set { b with arena := storeByte b.arena p } a (some ps)) s := by
  have hA' : AllocReachable b.alloc := S.alloc ▸ hA
  have keep : ∀ k l o, b.alloc.Returned k l o → b.alloc.Returned k l o := fun _ _ _ h => h
  refine ⟨S.alloc, S.used, S.bufs, S.owned, fun d => ?_⟩
  by_cases hd : d = a
  · subst hd
    rcases S.objs d with ⟨h1, _⟩ | ⟨qs, r, h, h1, h2, H, h3⟩
    · rw [hl] at h1; cases h1
    · rw [hl] at h1
      cases h1
      exact .inr ⟨ps, r, h, by simp [ByteState.set], h2, H, fun x hx => h3 x (by simp [hx])⟩
  · refine S.frame (a := a) hd keep (fun _ h => h) (fun _ h => h)
      (fun _ h => h) (fun e he => by simp [ByteState.set, he]) (fun _ _ => rfl) (fun y hy => ?_)
    rcases S.objs a with ⟨h1, _⟩ | ⟨qs, r, h, h1, h2, H, h3⟩
    · rw [hl] at h1; cases h1
    · rw [hl] at h1
      cases h1
      have := mine_ne hA' hd hy (h3 p (by simp))
      show storeByte b.arena p y = _
      simp only [storeByte, if_neg this]

theorem Sim.create (S : Sim C own b s) {i ptr : Nat}
    {a : Usize} {p : Position} {bs : List U8}
    (hi : b.alloc.calls[i]? = some ⟨C.position, .done (some a)⟩) (hu : i ∉ b.used)
    (hb : i ∉ b.bufs) (hp : Position.startpos = .ok p) (hlen : bs.length = C.position.size.toNat)
    (hr : C.fields bs = some ⟨p.initial, p.inner, ptr, 0, 0⟩) :
    ∃ own', Sim C own'
      (ByteState.set { b with used := b.used ++ [i] } a.toNat (some (storesAt a.toNat bs)))
      (RecState.set { s with used := s.used ++ [i] } a.toNat (some ⟨p, 0⟩)) := by
  have keep : ∀ k l o, b.alloc.Returned k l o → b.alloc.Returned k l o := fun _ _ _ h => h
  have hret : b.alloc.Returned i C.position a.toNat := ⟨a, hi, rfl⟩
  have oi : own i = none := S.unowned hu hb
  have hp' : p.moves = [] := by
    unfold Position.startpos at hp
    cases e : PartialPosition.startpos with
    | ok q => rw [e] at hp; cases hp; rfl
    | panic => rw [e] at hp; cases hp
    | ub => rw [e] at hp; cases hp
  refine ⟨fun k => if k = i then some a.toNat else own k,
    S.alloc, by simp [ByteState.set, RecState.set, S.used], S.bufs, ?_, fun d => ?_⟩
  · intro k c hk
    simp only [ByteState.set]
    by_cases e : k = i
    · exact .inl (by simp [e])
    · rw [if_neg e] at hk
      exact (S.owned k c hk).imp (fun h => by simp [h]) id
  · by_cases hd : d = a.toNat
    · subst hd
      refine .inr ⟨storesAt a.toNat bs, ⟨p, 0⟩, ⟨p.initial, p.inner, ptr, 0, 0⟩,
        by simp [ByteState.set], by simp [RecState.set],
        ⟨⟨i, by simp [ByteState.set], by simp, hret⟩, ?_, rfl, rfl, rfl, ?_, Nat.le_refl _,
          fun h => absurd rfl h, ?_⟩, ?_⟩
      · exact (congrArg C.fields (bytesAt_stored _ _ _ hlen)).trans hr
      · simp [hp']
      · intro k hk
        simp only [hp'] at hk
        exact absurd hk (by simp)
      · intro x hx
        have := mem_storesAt hx
        exact ⟨i, by simp, _, _, hret, this.1, hlen ▸ this.2⟩
    · refine S.frame (a := a.toNat) hd keep (fun _ h => by simp [ByteState.set, h]) (fun _ h => h)
        (fun k hk => ?_) (fun e he => by simp [ByteState.set, he])
        (fun e he => by simp [RecState.set, he]) (fun _ _ => rfl)
      have : k ≠ i := fun e => by rw [e, oi] at hk; cases hk
      rw [if_neg this, hk]

theorem Sim.refuse (S : Sim C own b s) (hA : AllocReachable s.alloc)
    (hn : (s.used ++ s.bufs).Nodup) {a : Nat} {r : Recorder} {h : PositionFields}
    {inner : PartialPosition} {bs : List U8}
    (H : Holds C b.alloc b.used b.bufs own b.arena a r h) (hlen : bs.length = C.position.size.toNat)
    (hbs : C.fields bs = some { h with inner := inner }) :
    Sim C own (b.set a (some (storesAt a bs)))
      (s.set a (some ⟨{ r.pos with inner := inner }, r.cap⟩)) := by
  have hA' : AllocReachable b.alloc := S.alloc ▸ hA
  have hn' : (b.used ++ b.bufs).Nodup := by rw [S.used, S.bufs]; exact hn
  have keep : ∀ k l o, b.alloc.Returned k l o → b.alloc.Returned k l o := fun _ _ _ h => h
  refine ⟨S.alloc, S.used, S.bufs, S.owned, fun d => ?_⟩
  by_cases hd : d = a
  · subst hd
    refine .inr ⟨_, _, _, by simp only [ByteState.set, if_true], by simp only [RecState.set, if_true],
      H.put hA' hn' hlen hbs rfl rfl rfl rfl, ?_⟩
    intro x hx
    obtain ⟨i, hi, oi, ri⟩ := H.block
    have := mem_storesAt hx
    exact ⟨i, oi, _, _, ri, this.1, hlen ▸ this.2⟩
  · exact S.frame (a := a) hd keep (fun _ h => h) (fun _ h => h) (fun _ h => h)
      (fun e he => by simp [ByteState.set, he]) (fun e he => by simp [RecState.set, he])
      (fun _ _ => rfl)

theorem Sim.push (S : Sim C own b s) (hA : AllocReachable s.alloc)
    (hn : (s.used ++ s.bufs).Nodup) {a : Nat} {r : Recorder} {h : PositionFields} {m : Move}
    {inner : PartialPosition} {ms bs : List U8}
    (H : Holds C b.alloc b.used b.bufs own b.arena a r h) (hne : h.len ≠ h.cap)
    (hms : ms.length = C.move.size.toNat) (hmr : C.moveOf ms = some m)
    (hlen : bs.length = C.position.size.toNat)
    (hbs : C.fields bs = some { h with inner := inner, len := h.len + 1 }) :
    Sim C own
      (b.set a (some (storesAt (h.ptr + h.len * C.move.size.toNat) ms ++ storesAt a bs)))
      (s.set a (some ⟨⟨r.pos.initial, inner, r.pos.moves ++ [m]⟩, r.cap⟩)) := by
  have hA' : AllocReachable b.alloc := S.alloc ▸ hA
  have hn' : (b.used ++ b.bufs).Nodup := by rw [S.used, S.bufs]; exact hn
  have keep : ∀ k l o, b.alloc.Returned k l o → b.alloc.Returned k l o := fun _ _ _ h => h
  refine ⟨S.alloc, S.used, S.bufs, S.owned, fun d => ?_⟩
  by_cases hd : d = a
  · subst hd
    refine .inr ⟨_, _, _, by simp only [ByteState.set, if_true],
      by simp only [RecState.set, if_true],
      H.push hA' hn' hms hmr hne hlen hbs rfl rfl rfl rfl, ?_⟩
    intro x hx
    obtain ⟨i, hi, oi, ri⟩ := H.block
    rcases List.mem_append.1 hx with hx | hx
    · have := mem_storesAt hx
      have hlt : h.len < h.cap := by have := H.le; omega
      obtain ⟨j, hj, oj, rj, hsz⟩ := H.buf (by omega)
      refine ⟨j, oj, _, _, rj, by omega, ?_⟩
      rw [array_size hsz]
      have h5 := Nat.mul_le_mul_right C.move.size.toNat hlt
      rw [Nat.succ_mul] at h5
      omega
    · have := mem_storesAt hx
      exact ⟨i, oi, _, _, ri, this.1, hlen ▸ this.2⟩
  · exact S.frame (a := a) hd keep (fun _ h => h) (fun _ h => h) (fun _ h => h)
      (fun e he => by simp [ByteState.set, he]) (fun e he => by simp [RecState.set, he])
      (fun _ _ => rfl)

theorem Sim.grow (S : Sim C own b s) (hA : AllocReachable s.alloc)
    {a i : Nat} {o : Usize} {r : Recorder} {h : PositionFields} {m : Move}
    {inner : PartialPosition} {ms bs : List U8}
    (H : Holds C b.alloc b.used b.bufs own b.arena a r h) (he : h.len = h.cap)
    (hsz : C.grow h.cap * C.move.size.toNat < 2 ^ (Profile.bits - 1))
    (hi : b.alloc.calls[i]? = some ⟨C.move.array (C.grow h.cap), .done (some o)⟩)
    (hu : i ∉ b.used) (hb : i ∉ b.bufs)
    (hms : ms.length = C.move.size.toNat) (hmr : C.moveOf ms = some m)
    (hlen : bs.length = C.position.size.toNat)
    (hbs : C.fields bs = some ⟨h.initial, inner, o.toNat, C.grow h.cap, h.len + 1⟩) :
    ∃ own', Sim C own'
      (ByteState.set { b with bufs := b.bufs ++ [i] } a
        (some (storesAt o.toNat (bytesAt b.arena h.ptr (h.cap * C.move.size.toNat)) ++
          storesAt (o.toNat + h.len * C.move.size.toNat) ms ++ storesAt a bs)))
      (RecState.set { s with bufs := s.bufs ++ [i] } a
        (some ⟨⟨r.pos.initial, inner, r.pos.moves ++ [m]⟩, C.grow r.cap⟩)) := by
  have hA' : AllocReachable b.alloc := S.alloc ▸ hA
  have keep : ∀ k l o, b.alloc.Returned k l o → b.alloc.Returned k l o := fun _ _ _ h => h
  have hret : b.alloc.Returned i (C.move.array (C.grow h.cap)) o.toNat := ⟨o, hi, rfl⟩
  have oi : own i = none := S.unowned hu hb
  have hcap := H.cap
  refine ⟨fun k => if k = i then some a else own k,
    S.alloc, S.used, by simp [ByteState.set, RecState.set, S.bufs], ?_, fun d => ?_⟩
  · intro k c hk
    simp only [ByteState.set]
    by_cases e : k = i
    · exact .inr (by simp [e])
    · rw [if_neg e] at hk
      exact (S.owned k c hk).imp id fun h => by simp [h]
  · by_cases hd : d = a
    · subst hd
      refine .inr ⟨_, _, _, by simp only [ByteState.set, if_true],
        by simp only [RecState.set, if_true, ← hcap],
        H.grow hA' hu hret (C.grow_lt _) hsz hms hmr he hlen hbs rfl rfl rfl rfl, ?_⟩
      intro x hx
      have hlt := C.grow_lt h.cap
      have h5 := Nat.mul_le_mul_right C.move.size.toNat hlt
      rw [Nat.succ_mul] at h5
      rcases List.mem_append.1 hx with hx | hx
      · refine ⟨i, by simp, _, _, hret, ?_⟩
        rw [array_size hsz]
        rcases List.mem_append.1 hx with hx | hx
        · have := mem_storesAt hx
          rw [bytesAt_length] at this
          omega
        · have := mem_storesAt hx
          rw [he] at this
          omega
      · obtain ⟨i0, hi0, o0, r0⟩ := H.block
        have := mem_storesAt hx
        have ne : i0 ≠ i := fun e => hu (e ▸ hi0)
        exact ⟨i0, by simp [ne, o0], _, _, r0, this.1, hlen ▸ this.2⟩
    · refine S.frame (a := a) hd keep (fun _ h => h) (fun _ h => by simp [ByteState.set, h])
        (fun k hk => ?_) (fun e he => by simp [ByteState.set, he])
        (fun e he => by simp [RecState.set, he]) (fun _ _ => rfl)
      have : k ≠ i := fun e => by rw [e, oi] at hk; cases hk
      rw [if_neg this, hk]

theorem Sim.destruct (S : Sim C own b s) (a : Nat) : Sim C own (b.set a none) (s.set a none) := by
  have keep : ∀ k l o, b.alloc.Returned k l o → b.alloc.Returned k l o := fun _ _ _ h => h
  refine ⟨S.alloc, S.used, S.bufs, S.owned, fun d => ?_⟩
  by_cases hd : d = a
  · subst hd
    exact .inl ⟨by simp [ByteState.set], by simp [RecState.set]⟩
  · exact S.frame (a := a) hd keep (fun _ h => h) (fun _ h => h) (fun _ h => h)
      (fun e he => by simp [ByteState.set, he]) (fun e he => by simp [RecState.set, he])
      (fun _ _ => rfl)

theorem compact_made {Q : Position} {c : CompactMove} {m : Move} {inner : PartialPosition}
    {v : Option Unit} (hm : c.toMove = .ok m) (h : Q.inner.make_move m = .ok (inner, v)) :
    Q.make_compact_move c = .ok (⟨Q.initial, inner, if v.isSome then Q.moves ++ [m] else Q.moves⟩,
      v.isSome) := by
  unfold Position.make_compact_move Position.make_move
  rw [hm]
  simp only [Res.bind_ok, h, Res.pure_eq]
  cases v <;> rfl

/-- Every step on bytes is a step on values, or changes nothing there. -/
theorem sim_step {o : Option BoxEvent} {b' : ByteState} (S : Sim C own b s)
    (hA : AllocReachable s.alloc) (hn : (s.used ++ s.bufs).Nodup) (st : ByteStep C b o b') :
    ∃ own' s', Sim C own' b' s' ∧
      ((o = none ∧ s' = s) ∨ RecStep C.position C.move C.grow s o s') := by
  cases st with
  | alloc ht => exact ⟨own, _, S.alloc_step ht, .inr (.alloc (S.alloc ▸ ht))⟩
  | other v hk h1 h2 hu hb => exact ⟨own, s, S.other hA v hk h1 h2 hu hb, .inl ⟨rfl, rfl⟩⟩
  | store hl => exact ⟨own, s, S.store hA hl, .inl ⟨rfl, rfl⟩⟩
  | create hi hu hb hp hlen hr =>
    obtain ⟨own', S'⟩ := S.create hi hu hb hp hlen hr
    exact ⟨own', _, S', .inr (.create (S.alloc ▸ hi) (S.used ▸ hu) (S.bufs ▸ hb) hp)⟩
  | refuse hl hr hc hm hmk hlen hbs =>
    obtain ⟨r, hs, H⟩ := S.idle hl hr
    exact ⟨own, _, S.refuse hA hn H hlen hbs,
      .inr (.move hs hc (compact_made hm (H.inner ▸ hmk)) nofun)⟩
  | push hl hr hc hm hmk hne hms hmr hlen hbs =>
    obtain ⟨r, hs, H⟩ := S.idle hl hr
    refine ⟨own, _, S.push hA hn H hne hms hmr hlen hbs,
      .inr (.move hs hc (compact_made hm (H.inner ▸ hmk)) fun _ => ?_)⟩
    rw [← H.len, ← H.cap]; exact hne
  | grow hl hr hc hm hmk he hsz hi hu hb hms hmr hlen hbs =>
    obtain ⟨r, hs, H⟩ := S.idle hl hr
    obtain ⟨own', S'⟩ := S.grow hA H he hsz hi hu hb hms hmr hlen hbs
    have hcap := H.cap
    exact ⟨own', _, S', .inr (.grow hs hc (compact_made hm (H.inner ▸ hmk))
      (by rw [← H.len, ← hcap]; exact he) (by rw [← hcap]; exact hsz)
      (by rw [← hcap]; exact S.alloc ▸ hi) (S.used ▸ hu) (S.bufs ▸ hb))⟩
  | @destruct a h hl hr =>
    obtain ⟨r, hs, H⟩ := S.idle hl hr
    exact ⟨own, _, S.destruct a, .inr (.destruct hs)⟩

end

theorem sim_run {C : Compiler} (hL : 0 < C.position.size.toNat) {es : List BoxEvent} {b : ByteState}
    (r : ByteRun C es b) (hv : ∀ e ∈ es, e.Valid) :
    ∃ s own, RecRun C.position C.move C.grow es s ∧ Sim C own b s := by
  induction r with
  | init => exact ⟨.init, fun _ => none, .init, rfl, rfl, rfl, nofun, fun _ => .inl ⟨rfl, rfl⟩⟩
  | @step es b o b' r st ih =>
    obtain ⟨s, own, rr, S⟩ := ih fun e he => hv e (List.mem_append_left _ he)
    have hv' : ∀ e ∈ es, e.Valid := fun e he => hv e (List.mem_append_left _ he)
    have bi := box_inv hL (C71_refines rr) hv'
    obtain ⟨own', s', S', ⟨rfl, rfl⟩ | h⟩ := sim_step S bi.reach (rec_inv hL rr hv').nodup st
    · exact ⟨s', own', by simpa using rr, S'⟩
    · exact ⟨s', own', .step rr h, S'⟩

/-! ### From values to bytes -/

/-- No function is running. -/
def ByteState.Idle (b : ByteState) : Prop := ∀ a, b.live a = none ∨ b.live a = some []

theorem sim_drain {C : Compiler} {own : Nat → Option Nat} {s : RecState} {es : List BoxEvent}
    {a : Nat} (ps : List ByteStore) :
    ∀ b : ByteState, ByteRun C es b → Sim C own b s → AllocReachable s.alloc → b.live a = some ps →
      (∀ d, d ≠ a → b.live d = none ∨ b.live d = some []) →
      ∃ b', ByteRun C es b' ∧ Sim C own b' s ∧ b'.Idle := by
  induction ps with
  | nil =>
    intro b r S hA hl hd
    refine ⟨b, r, S, fun d => ?_⟩
    by_cases e : d = a
    · exact .inr (e ▸ hl)
    · exact hd d e
  | cons p ps ih =>
    intro b r S hA hl hd
    refine ih (ByteState.set { b with arena := storeByte b.arena p } a (some ps)) ?_ (S.store hA hl) hA
      (by simp [ByteState.set]) (fun d e => by simpa [ByteState.set, e] using hd d e)
    simpa using ByteRun.step r (.store hl)

theorem compact_cases {Q R : Position} {c : CompactMove} {v : Bool}
    (h : Q.make_compact_move c = .ok (R, v)) :
    ∃ m inner, c.toMove = .ok m ∧ ((v = false ∧ Q.inner.make_move m = .ok (inner, none) ∧
        R = { Q with inner := inner }) ∨
      (v = true ∧ Q.inner.make_move m = .ok (inner, some ()) ∧
        R = ⟨Q.initial, inner, Q.moves ++ [m]⟩)) := by
  cases hm : c.toMove with
  | ok m =>
    cases hk : Q.inner.make_move m with
    | ok x =>
      obtain ⟨inner, u⟩ := x
      rw [compact_made hm hk] at h
      cases u <;> cases h
      · exact ⟨m, inner, rfl, .inl ⟨rfl, hk, rfl⟩⟩
      · exact ⟨m, inner, rfl, .inr ⟨rfl, hk, rfl⟩⟩
    | panic | ub =>
      unfold Position.make_compact_move Position.make_move at h
      rw [hm] at h; simp only [Res.bind_ok, hk] at h; cases h
  | panic | ub =>
    unfold Position.make_compact_move at h
    rw [hm] at h; cases h

theorem can_run {C : Compiler} (hL : 0 < C.position.size.toNat) (hM : 0 < C.move.size.toNat)
    (hC : C.Complete) {es : List BoxEvent} {s : RecState}
    (r : RecRun C.position C.move C.grow es s) (hv : ∀ e ∈ es, e.Valid) :
    ∃ b own, ByteRun C es b ∧ Sim C own b s ∧ b.Idle := by
  induction r with
  | init =>
    exact ⟨.init, fun _ => none, .init, ⟨rfl, rfl, rfl, nofun, fun _ => .inl ⟨rfl, rfl⟩⟩,
      fun _ => .inl rfl⟩
  | @step es s o s' r st ih =>
    have hv' : ∀ e ∈ es, e.Valid := fun e he => hv e (List.mem_append_left _ he)
    obtain ⟨b, own, rb, S, I⟩ := ih hv'
    have hA := (box_inv hL (C71_refines r) hv').reach
    have hn := (rec_inv hL r hv').nodup
    have get : ∀ {a r}, s.objs a = some r → b.live a = some [] ∧ ∃ h,
        C.fields (bytesAt b.arena a C.position.size.toNat) = some h ∧
        Holds C b.alloc b.used b.bufs own b.arena a r h := by
      intro a r hs
      rcases S.objs a with ⟨_, h2⟩ | ⟨ps, r', h, h1, h2, H, _⟩
      · rw [hs] at h2; cases h2
      · rw [hs] at h2
        cases h2
        rcases I a with e | e
        · rw [e] at h1; cases h1
        · rw [e] at h1
          cases h1
          exact ⟨e, h, H.read, H⟩
    have val : ∀ {mv : Move} {c m}, mv.Valid → CompactMove.ofMove mv = .ok c → c.toMove = .ok m →
        ∃ ms, ms.length = C.move.size.toNat ∧ C.moveOf ms = some m := by
      intro mv c m hmv hc hm
      obtain ⟨c', hc', henc⟩ := CompactMove.ofMove_ok hmv
      rw [hc] at hc'
      cases hc'
      rw [CompactMove.toMove_of_encodes hmv henc] at hm
      cases hm
      exact hC.moves mv hmv
    have off : ∀ {a : Nat} {q : Option (List ByteStore)} (b0 : ByteState), b0.live = b.live → ∀ d, d ≠ a →
        (b0.set a q).live d = none ∨ (b0.set a q).live d = some [] := by
      intro a q b0 h0 d hd
      simpa [ByteState.set, hd, h0] using I d
    cases st with
    | @alloc t ht =>
      exact ⟨_, own, .step rb (.alloc (S.alloc ▸ ht)), S.alloc_step (S.alloc ▸ ht), I⟩
    | @create i a p hi hu hb hp =>
      obtain ⟨bs, hlen, hbs⟩ := hC.fields ⟨p.initial, p.inner, 0, 0, 0⟩
        (Nat.two_pow_pos _) (Nat.two_pow_pos _) (Nat.two_pow_pos _)
      rw [← S.alloc] at hi
      rw [← S.used] at hu
      rw [← S.bufs] at hb
      obtain ⟨own', S'⟩ := S.create hi hu hb hp hlen hbs
      obtain ⟨b', h1, h2, h3⟩ := sim_drain (a := a.toNat) _ _ (.step rb (.create hi hu hb hp hlen hbs))
        S' hA (if_pos rfl) (off _ rfl)
      exact ⟨b', own', h1, h2, h3⟩
    | @move a r q mv c v hs hc hmk hcap =>
      have hmv : mv.Valid := hv (.move a mv v) (by simp)
      obtain ⟨hl, h, hr, H⟩ := get hs
      have hf := C.fits _ _ hr
      obtain ⟨m, inner, hm, ⟨rfl, hk, rfl⟩ | ⟨rfl, hk, rfl⟩⟩ := compact_cases hmk
      · obtain ⟨bs, hlen, hbs⟩ := hC.fields { h with inner := inner } hf.1 hf.2.1 hf.2.2
        have S' := S.refuse hA hn H hlen hbs
        obtain ⟨b', h1, h2, h3⟩ := sim_drain (a := a) _ _
          (.step rb (.refuse hl hr hc hm (H.inner ▸ hk) hlen hbs)) S' hA
          (if_pos rfl) (off _ rfl)
        exact ⟨b', own, h1, h2, h3⟩
      · have hne : h.len ≠ h.cap := by rw [H.len, H.cap]; exact hcap rfl
        have hle := H.le
        obtain ⟨ms, hms, hmr⟩ := val hmv hc hm
        obtain ⟨bs, hlen, hbs⟩ := hC.fields { h with inner := inner, len := h.len + 1 } hf.1 hf.2.1
          (Nat.lt_of_le_of_lt (show h.len + 1 ≤ h.cap by omega) hf.2.1)
        have S' := S.push hA hn H hne hms hmr hlen hbs
        obtain ⟨b', h1, h2, h3⟩ := sim_drain (a := a) _ _
          (.step rb (.push hl hr hc hm (H.inner ▸ hk) hne hms hmr hlen hbs)) S' hA
          (if_pos rfl) (off _ rfl)
        exact ⟨b', own, h1, h2, h3⟩
    | @grow a i o r q mv c hs hc hmk he hsz hi hu hb =>
      have hmv : mv.Valid := hv (.move a mv true) (by simp)
      obtain ⟨hl, h, hr, H⟩ := get hs
      obtain ⟨m, inner, hm, ⟨h0, _⟩ | ⟨_, hk, rfl⟩⟩ := compact_cases hmk
      · cases h0
      rw [← S.alloc] at hi
      rw [← S.used] at hu
      rw [← S.bufs] at hb
      rw [← H.cap] at hsz hi
      have he : h.len = h.cap := by rw [H.len, H.cap]; exact he
      obtain ⟨ms, hms, hmr⟩ := val hmv hc hm
      have hg := C.grow_lt h.cap
      have hb1 : C.grow h.cap < 2 ^ Profile.bits := by
        refine Nat.lt_of_le_of_lt (Nat.le_mul_of_pos_right _ hM) (Nat.lt_of_lt_of_le hsz ?_)
        exact Nat.pow_le_pow_right (by omega) (by omega)
      obtain ⟨bs, hlen, hbs⟩ := hC.fields ⟨h.initial, inner, o.toNat, C.grow h.cap, h.len + 1⟩
        o.isLt hb1 (Nat.lt_of_le_of_lt (show h.len + 1 ≤ C.grow h.cap by omega) hb1)
      obtain ⟨own', S'⟩ := S.grow hA H he hsz hi hu hb hms hmr hlen hbs
      obtain ⟨b', h1, h2, h3⟩ := sim_drain (a := a) _ _
        (.step rb (.grow hl hr hc hm (H.inner ▸ hk) he hsz hi hu hb hms hmr hlen hbs)) S' hA
        (if_pos rfl) (off _ rfl)
      exact ⟨b', own', h1, h2, h3⟩
    | @destruct a r hs =>
      obtain ⟨hl, h, hr, H⟩ := get hs
      refine ⟨_, own, .step rb (.destruct hl hr), S.destruct a, fun d => ?_⟩
      by_cases hd : d = a
      · exact .inl (by simp [ByteState.set, hd])
      · exact off (q := none) b rfl d hd

end ShogiCore
