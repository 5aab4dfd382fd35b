import Verif.Spec.Alloc
import Verif.Lemmas.Res

/- C51: the freestanding memory functions meet the C contract. -/

namespace ShogiCore

/-! ### Reading and writing -/

theorem Mem.read_some {m : Mem} {p : Nat} {v : U8} (h : m p = some v) : m.read p = .ok v := by
  simp only [Mem.read, h]

theorem Mem.read_none {m : Mem} {p : Nat} (h : m p = none) : m.read p = .ub := by
  simp only [Mem.read, h]

theorem Mem.write_some {m : Mem} {p : Nat} (h : m p ≠ none) (v : U8) :
    m.write p v = .ok (fun q => if q = p then some v else m q) := by
  unfold Mem.write
  cases e : m p with
  | none => exact absurd e h
  | some _ => rfl

theorem Mem.write_none {m : Mem} {p : Nat} (h : m p = none) (v : U8) : m.write p v = .ub := by
  simp only [Mem.write, h]

/-! ### The loops, from their last iteration -/

theorem memcpy_loop_append (d s : Nat) (l₁ l₂ : List Nat) (m : Mem) :
    memcpy_loop d s (l₁ ++ l₂) m = memcpy_loop d s l₁ m >>= memcpy_loop d s l₂ := by
  induction l₁ generalizing m with
  | nil => simp only [List.nil_append, memcpy_loop, Res.bind_ok]
  | cons i l ih => simp only [List.cons_append, memcpy_loop, ih, bind_assoc]

theorem memset_loop_append (b : Nat) (c : I32) (l₁ l₂ : List Nat) (m : Mem) :
    memset_loop b c (l₁ ++ l₂) m = memset_loop b c l₁ m >>= memset_loop b c l₂ := by
  induction l₁ generalizing m with
  | nil => simp only [List.nil_append, memset_loop, Res.bind_ok]
  | cons i l ih => simp only [List.cons_append, memset_loop, ih, bind_assoc]

theorem bzero_loop_eq (b : Nat) (l : List Nat) (m : Mem) :
    bzero_loop b l m = memset_loop b 0 l m := by
  induction l generalizing m with
  | nil => rfl
  | cons i l ih =>
    simp only [bzero_loop, memset_loop, ih]
    rfl

/-! ### memcpy -/

/-- The general fact: copying upwards is right as long as no byte of the source is overwritten
before it is read. -/
theorem memcpy_correct {m : Mem} {d s : Nat} {n : Nat} (hs : m.Accessible s n)
    (hd : m.Accessible d n) (ho : ∀ i j, i < j → j < n → d + i ≠ s + j) :
    ∃ m', memcpy_loop d s (List.range n) m = .ok m' ∧ (∀ k < n, m' (d + k) = m (s + k)) ∧
      ∀ x, (∀ k < n, x ≠ d + k) → m' x = m x := by
  induction n with
  | zero => exact ⟨m, rfl, fun k hk => absurd hk (Nat.not_lt_zero k), fun _ _ => rfl⟩
  | succ n ih =>
    obtain ⟨m', h1, h2, h3⟩ := ih (fun k hk => hs k (by omega)) (fun k hk => hd k (by omega))
      (fun i j hij hj => ho i j hij (by omega))
    have e1 : m' (s + n) = m (s + n) :=
      h3 _ (fun k hk e => ho k n hk (by omega) e.symm)
    have e2 : m' (d + n) = m (d + n) := h3 _ (fun k hk e => by omega)
    obtain ⟨v, hv⟩ := Option.ne_none_iff_exists'.1 (hs n (by omega))
    refine ⟨fun q => if q = d + n then some v else m' q, ?_, ?_, ?_⟩
    · rw [List.range_succ, memcpy_loop_append, h1]
      simp only [Res.bind_ok, memcpy_loop, Mem.read_some (e1.trans hv),
        Mem.write_some (e2 ▸ hd n (by omega))]
    · intro k hk
      by_cases e : k = n
      · subst e; simp only [if_true, hv]
      · have hne : d + k ≠ d + n := by omega
        simp only [if_neg hne]; exact h2 k (by omega)
    · intro x hx
      simp only [if_neg (hx n (by omega))]
      exact h3 x (fun k hk => hx k (by omega))

/-- C51: `memcpy` of non-overlapping regions copies exactly the `n` bytes, changes nothing
else and returns its first argument. -/
theorem C51_memcpy {m : Mem} {d s n : Nat} (hs : m.Accessible s n) (hd : m.Accessible d n)
    (ho : NonOverlapping d s n) :
    ∃ m', memcpy m d s n = .ok (m', d) ∧ (∀ k < n, m' (d + k) = m (s + k)) ∧
      ∀ x, (∀ k < n, x ≠ d + k) → m' x = m x := by
  obtain ⟨m', h1, h2⟩ := memcpy_correct hs hd (fun i j hij hj => ho i (by omega) j hj)
  exact ⟨m', by simp only [memcpy, h1, Res.bind_ok, Res.pure_eq], h2⟩

/-- C51: it is also right for overlapping regions when the destination is not above the
source, which is more than C asks for. -/
theorem C51_memcpy_downwards {m : Mem} {d s n : Nat} (hs : m.Accessible s n)
    (hd : m.Accessible d n) (ho : d ≤ s) :
    ∃ m', memcpy m d s n = .ok (m', d) ∧ (∀ k < n, m' (d + k) = m (s + k)) ∧
      ∀ x, (∀ k < n, x ≠ d + k) → m' x = m x := by
  obtain ⟨m', h1, h2⟩ := memcpy_correct hs hd (fun i j hij hj => by omega)
  exact ⟨m', by simp only [memcpy, h1, Res.bind_ok, Res.pure_eq], h2⟩

/-- Running the loop keeps the set of accessible addresses. -/
theorem memcpy_loop_dom {d s : Nat} {l : List Nat} {m m' : Mem}
    (h : memcpy_loop d s l m = .ok m') (x : Nat) : m' x = none ↔ m x = none := by
  induction l generalizing m with
  | nil => cases h; exact Iff.rfl
  | cons i l ih =>
    simp only [memcpy_loop] at h
    cases e1 : m (s + i) with
    | none => rw [Mem.read_none e1] at h; cases h
    | some v =>
      rw [Mem.read_some e1] at h
      cases e2 : m (d + i) with
      | none => simp only [Res.bind_ok, Mem.write_none e2] at h; cases h
      | some w =>
        have e3 : m (d + i) ≠ none := by rw [e2]; simp
        simp only [Res.bind_ok, Mem.write_some e3] at h
        rw [ih h]
        by_cases hx : x = d + i
        · subst hx; simp [e2]
        · simp [hx]

/-- C51: `memcpy` never panics, and is undefined exactly when one of the two regions is not
accessible. -/
theorem C51_memcpy_ub (m : Mem) (d s n : Nat) :
    memcpy m d s n ≠ .panic ∧
    (memcpy m d s n = .ub ↔ ¬(m.Accessible s n ∧ m.Accessible d n)) := by
  suffices h : (∃ m', memcpy_loop d s (List.range n) m = .ok m' ∧
        (m.Accessible s n ∧ m.Accessible d n)) ∨
      (memcpy_loop d s (List.range n) m = .ub ∧ ¬(m.Accessible s n ∧ m.Accessible d n)) by
    unfold memcpy
    rcases h with ⟨m', h1, h2⟩ | ⟨h1, h2⟩
    · rw [h1]; exact ⟨by simp, by simp [h2]⟩
    · rw [h1]; exact ⟨by simp, by simp [h2]⟩
  induction n with
  | zero => exact .inl ⟨m, rfl, fun k hk => by omega, fun k hk => by omega⟩
  | succ n ih =>
    rw [List.range_succ, memcpy_loop_append]
    rcases ih with ⟨m', h1, h2, h3⟩ | ⟨h1, h2⟩
    · rw [h1]
      simp only [Res.bind_ok, memcpy_loop]
      cases e1 : m' (s + n) with
      | none =>
        refine .inr ⟨by rw [Mem.read_none e1]; rfl, fun h => ?_⟩
        exact h.1 n (by omega) ((memcpy_loop_dom h1 _).1 e1)
      | some v =>
        rw [Mem.read_some e1]
        cases e2 : m' (d + n) with
        | none =>
          refine .inr ⟨by simp only [Res.bind_ok, Mem.write_none e2]; rfl, fun h => ?_⟩
          exact h.2 n (by omega) ((memcpy_loop_dom h1 _).1 e2)
        | some w =>
          have e3 : m' (d + n) ≠ none := by rw [e2]; simp
          refine .inl ⟨_, by rw [Res.bind_ok, Mem.write_some e3]; rfl, ?_, ?_⟩
          · intro k hk
            by_cases e : k = n
            · subst e; intro h; rw [(memcpy_loop_dom h1 _).2 h] at e1; cases e1
            · exact h2 k (by omega)
          · intro k hk
            by_cases e : k = n
            · subst e; intro h; rw [(memcpy_loop_dom h1 _).2 h] at e2; cases e2
            · exact h3 k (by omega)
    · rw [h1]
      exact .inr ⟨rfl, fun h => h2 ⟨fun k hk => h.1 k (by omega), fun k hk => h.2 k (by omega)⟩⟩

/-! ### memset and bzero -/

theorem memset_correct {m : Mem} {b : Nat} (c : I32) {n : Nat} (hb : m.Accessible b n) :
    ∃ m', memset_loop b c (List.range n) m = .ok m' ∧
      (∀ k < n, m' (b + k) = some (c.setWidth 8)) ∧ ∀ x, (∀ k < n, x ≠ b + k) → m' x = m x := by
  induction n with
  | zero => exact ⟨m, rfl, fun k hk => absurd hk (Nat.not_lt_zero k), fun _ _ => rfl⟩
  | succ n ih =>
    obtain ⟨m', h1, h2, h3⟩ := ih (fun k hk => hb k (by omega))
    have e2 : m' (b + n) = m (b + n) := h3 _ (fun k hk e => by omega)
    refine ⟨fun q => if q = b + n then some (c.setWidth 8) else m' q, ?_, ?_, ?_⟩
    · rw [List.range_succ, memset_loop_append, h1]
      simp only [Res.bind_ok, memset_loop, Mem.write_some (e2 ▸ hb n (by omega))]
      rfl
    · intro k hk
      by_cases e : k = n
      · subst e; simp only [if_true]
      · have hne : b + k ≠ b + n := by omega
        simp only [if_neg hne]; exact h2 k (by omega)
    · intro x hx
      simp only [if_neg (hx n (by omega))]
      exact h3 x (fun k hk => hx k (by omega))

theorem memset_loop_ub {m : Mem} {b : Nat} {c : I32} {n : Nat} (hb : ¬m.Accessible b n) :
    memset_loop b c (List.range n) m = .ub := by
  induction n with
  | zero => exact absurd (fun k hk => absurd hk (Nat.not_lt_zero k)) hb
  | succ n ih =>
    rw [List.range_succ, memset_loop_append]
    by_cases h : m.Accessible b n
    · obtain ⟨m', h1, _, h3⟩ := memset_correct c h
      have e : m (b + n) = none := by
        apply Classical.byContradiction
        intro hne
        apply hb
        intro k hk
        by_cases e : k = n
        · subst e; exact hne
        · exact h k (by omega)
      have e2 : m' (b + n) = none := (h3 _ (fun k hk e => by omega)).trans e
      rw [h1]
      simp only [Res.bind_ok, memset_loop, Mem.write_none e2]
      rfl
    · rw [ih h]; rfl

/-- C51: `memset` sets exactly `n` bytes to the low byte of `c`, changes nothing else and
returns its first argument. -/
theorem C51_memset {m : Mem} {b : Nat} (c : I32) {n : Nat} (hb : m.Accessible b n) :
    ∃ m', memset m b c n = .ok (m', b) ∧
      (∀ k < n, ∃ v, m' (b + k) = some v ∧ v.toNat = c.toNat % 256) ∧
      ∀ x, (∀ k < n, x ≠ b + k) → m' x = m x := by
  obtain ⟨m', h1, h2, h3⟩ := memset_correct c hb
  exact ⟨m', by simp only [memset, h1, Res.bind_ok, Res.pure_eq],
    fun k hk => ⟨_, h2 k hk, by simp⟩, h3⟩

/-- C51: `__bzero` sets exactly `n` bytes to zero and changes nothing else. -/
theorem C51_bzero {m : Mem} {b : Nat} {n : Nat} (hb : m.Accessible b n) :
    ∃ m', bzero m b n = .ok m' ∧ (∀ k < n, m' (b + k) = some 0) ∧
      ∀ x, (∀ k < n, x ≠ b + k) → m' x = m x := by
  obtain ⟨m', h1, h2, h3⟩ := memset_correct 0 hb
  exact ⟨m', by rw [bzero, bzero_loop_eq, h1], h2, h3⟩

/-- C51: they are undefined when the region is not accessible. -/
theorem C51_fill_ub {m : Mem} {b : Nat} {c : I32} {n : Nat} (hb : ¬m.Accessible b n) :
    memset m b c n = .ub ∧ bzero m b n = .ub := by
  refine ⟨?_, ?_⟩
  · rw [memset, memset_loop_ub hb]; rfl
  · rw [bzero, bzero_loop_eq, memset_loop_ub hb]

/-! ### memcmp -/

section
variable [Profile]

theorem byte_diff (a b : U8) :
    csubs (cast 32 a) (cast 32 b) = .ok (cast 32 a - cast 32 b : BitVec 32) ∧
    (cast 32 a - cast 32 b : BitVec 32).toInt = (a.toNat : Int) - b.toNat := by
  have ha := a.isLt
  have hb := b.isLt
  have e : (cast 32 a - cast 32 b : BitVec 32).toInt = (a.toNat : Int) - b.toNat := by
    rw [BitVec.toInt_sub]
    simp only [cast, BitVec.toInt_setWidth, Int.bmod_def]
    omega
  refine ⟨?_, e⟩
  have e1 : ∀ c : U8, (cast 32 c : BitVec 32).toInt = c.toNat := by
    intro c
    have := c.isLt
    simp only [cast, BitVec.toInt_setWidth]
    rw [Int.bmod_def]; omega
  rw [csubs, e, e1, e1]
  simp

theorem memcmp_loop_spec {m : Mem} {s1 s2 : Nat} (l : List Nat)
    (h : ∀ i ∈ l, m (s1 + i) ≠ none ∧ m (s2 + i) ≠ none) :
    (memcmp_loop m s1 s2 l = .ok 0 ∧ ∀ i ∈ l, m (s1 + i) = m (s2 + i)) ∨
    ∃ l₁ i l₂ v1 v2 r, l = l₁ ++ i :: l₂ ∧ (∀ j ∈ l₁, m (s1 + j) = m (s2 + j)) ∧
      m (s1 + i) = some v1 ∧ m (s2 + i) = some v2 ∧ v1 ≠ v2 ∧
      memcmp_loop m s1 s2 l = .ok r ∧ r.toInt = (v1.toNat : Int) - v2.toNat := by
  induction l with
  | nil => exact .inl ⟨rfl, fun i hi => absurd hi List.not_mem_nil⟩
  | cons i l ih =>
    obtain ⟨h1, h2⟩ := h i List.mem_cons_self
    obtain ⟨v1, e1⟩ := Option.ne_none_iff_exists'.1 h1
    obtain ⟨v2, e2⟩ := Option.ne_none_iff_exists'.1 h2
    simp only [memcmp_loop, Mem.read_some e1, Mem.read_some e2, Res.bind_ok]
    by_cases hv : v1 = v2
    · rw [if_neg (by simpa using hv)]
      rcases ih (fun j hj => h j (List.mem_cons_of_mem _ hj)) with ⟨h3, h4⟩ | h3
      · refine .inl ⟨h3, fun j hj => ?_⟩
        rcases List.mem_cons.1 hj with rfl | hj
        · rw [e1, e2, hv]
        · exact h4 j hj
      · obtain ⟨l₁, k, l₂, w1, w2, r, rfl, h4, h5⟩ := h3
        refine .inr ⟨i :: l₁, k, l₂, w1, w2, r, rfl, fun j hj => ?_, h5⟩
        rcases List.mem_cons.1 hj with rfl | hj
        · rw [e1, e2, hv]
        · exact h4 j hj
    · rw [if_pos hv, (byte_diff v1 v2).1]
      exact .inr ⟨[], i, l, v1, v2, _, rfl, fun j hj => absurd hj List.not_mem_nil, e1, e2, hv,
        rfl, (byte_diff v1 v2).2⟩

omit [Profile] in
theorem range_split {n i : Nat} {l₁ l₂ : List Nat} (h : List.range n = l₁ ++ i :: l₂) :
    i < n ∧ ∀ j, j ∈ l₁ ↔ j < i := by
  have hlen : n = l₁.length + (l₂.length + 1) := by
    have := congrArg List.length h
    simpa using this
  have get : ∀ k, k < n → (l₁ ++ i :: l₂)[k]? = some k := by
    intro k hk; rw [← h, List.getElem?_range hk]
  have hi : i = l₁.length := by
    have := get l₁.length (by omega)
    rw [List.getElem?_append_right (Nat.le_refl _), Nat.sub_self] at this
    exact Option.some.inj this
  refine ⟨by omega, fun j => ?_⟩
  constructor
  · intro hj
    obtain ⟨k, hk, e⟩ := List.mem_iff_getElem.1 hj
    have := get k (by omega)
    rw [List.getElem?_append_left hk, List.getElem?_eq_getElem hk, e] at this
    have := Option.some.inj this
    omega
  · intro hj
    have := get j (by omega)
    rw [List.getElem?_append_left (by omega)] at this
    exact List.mem_of_getElem? this

/-- C51: `memcmp` returns zero exactly when the regions are equal, and otherwise the
difference of the first two bytes that differ (as unsigned values). -/
theorem C51_memcmp {m : Mem} {s1 s2 n : Nat} (h1 : m.Accessible s1 n) (h2 : m.Accessible s2 n) :
    ∃ r, memcmp m s1 s2 n = .ok r ∧ (r = 0 ↔ ∀ k < n, m (s1 + k) = m (s2 + k)) ∧
      ∀ k < n, ∀ v1 v2, (∀ j < k, m (s1 + j) = m (s2 + j)) → m (s1 + k) = some v1 →
        m (s2 + k) = some v2 → v1 ≠ v2 → r.toInt = (v1.toNat : Int) - v2.toNat := by
  rcases memcmp_loop_spec (m := m) (s1 := s1) (s2 := s2) (List.range n)
    (fun i hi => ⟨h1 i (List.mem_range.1 hi), h2 i (List.mem_range.1 hi)⟩) with ⟨h3, h4⟩ | h3
  · refine ⟨0, h3, ⟨fun _ k hk => h4 k (List.mem_range.2 hk), fun _ => rfl⟩, ?_⟩
    intro k hk v1 v2 _ e1 e2 hne
    have := h4 k (List.mem_range.2 hk)
    rw [e1, e2] at this
    exact absurd (Option.some.inj this) hne
  · obtain ⟨l₁, i, l₂, v1, v2, r, h4, h5, h6, h7, h8, h9, h10⟩ := h3
    obtain ⟨hi, hl⟩ := range_split h4
    have hr : ∀ k < n, m (s1 + k) ≠ m (s2 + k) → (∀ j < k, m (s1 + j) = m (s2 + j)) → k = i := by
      intro k hk hne hj
      rcases Nat.lt_trichotomy k i with hlt | e | hgt
      · exact absurd (h5 k ((hl k).2 hlt)) hne
      · exact e
      · have := hj i hgt
        rw [h6, h7] at this
        exact absurd (Option.some.inj this) h8
    refine ⟨r, h9, ⟨fun e => ?_, fun e => ?_⟩, ?_⟩
    · rw [e] at h10
      exact absurd (BitVec.eq_of_toNat_eq (by
        have : ((0 : I32)).toInt = 0 := rfl
        omega)) h8
    · have := e i hi
      rw [h6, h7] at this
      exact absurd (Option.some.inj this) h8
    · intro k hk w1 w2 hj e1 e2 hne
      have : k = i := hr k hk (by rw [e1, e2]; exact fun h => hne (Option.some.inj h)) hj
      subst this
      rw [h6] at e1; rw [h7] at e2
      cases e1; cases e2
      exact h10

/-- C51: the sign of the result orders the regions lexicographically. -/
theorem C51_memcmp_sign {m : Mem} {s1 s2 n k : Nat} {v1 v2 : U8} {r : I32}
    (h1 : m.Accessible s1 n) (h2 : m.Accessible s2 n) (hr : memcmp m s1 s2 n = .ok r) (hk : k < n)
    (hj : ∀ j < k, m (s1 + j) = m (s2 + j)) (e1 : m (s1 + k) = some v1)
    (e2 : m (s2 + k) = some v2) :
    (v1.toNat < v2.toNat → r.toInt < 0) ∧ (v2.toNat < v1.toNat → 0 < r.toInt) := by
  obtain ⟨r', h3, _, h5⟩ := C51_memcmp h1 h2
  rw [hr] at h3
  cases h3
  refine ⟨fun hlt => ?_, fun hlt => ?_⟩
  · have := h5 k hk v1 v2 hj e1 e2 (fun e => by rw [e] at hlt; omega)
    omega
  · have := h5 k hk v1 v2 hj e1 e2 (fun e => by rw [e] at hlt; omega)
    omega

end

/-- Non-vacuity: a memory of 16 bytes holding 0, 16, 32, ... -/
def mem16 : Mem := fun a => if a < 16 then some (BitVec.ofNat 8 (16 * a)) else none

theorem mem16_accessible {p n : Nat} (h : p + n ≤ 16) : mem16.Accessible p n := by
  intro k hk
  rw [mem16, if_pos (by omega)]
  simp

example : mem16.Accessible 8 4 ∧ mem16.Accessible 2 4 ∧ NonOverlapping 8 2 4 ∧
    ¬mem16.Accessible 14 4 :=
  ⟨mem16_accessible (by omega), mem16_accessible (by omega), fun i hi j hj => by omega,
    fun h => h 3 (by omega) (by decide)⟩

/-- Unsigned comparison: byte 0 against byte 240 at offsets 0 and 15. -/
example [Profile] : ∃ r, memcmp mem16 15 0 1 = .ok r ∧ r.toInt = 240 := by
  obtain ⟨r, h1, _, h3⟩ := C51_memcmp (m := mem16) (s1 := 15) (s2 := 0) (n := 1)
    (mem16_accessible (by omega)) (mem16_accessible (by omega))
  exact ⟨r, h1, h3 0 (by omega) 240 0 (fun j hj => by omega) rfl rfl (by decide)⟩

/-- Overlap upwards is really excluded: copying 2 bytes from 0 to 1 smears the first byte. -/
example : ∃ m', memcpy mem16 1 0 2 = .ok (m', 1) ∧ m' 2 ≠ mem16 1 := by
  refine ⟨_, rfl, by decide⟩

end ShogiCore
