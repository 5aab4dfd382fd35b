import Verif.Spec.Heap
import Verif.Props.Alloc
import Verif.Props.Memory

/- C64 and C65: the arena as memory. -/

set_option linter.unusedSectionVars false

namespace ShogiCore

section
variable [P : Profile]

/-! ### C64: private blocks -/

theorem heap_reachable {h h' : Heap} {tr : List Store} (r : HeapRun h tr h')
    (hr : AllocReachable h.state) : AllocReachable h'.state := by
  induction r with
  | refl => exact hr
  | alloc _ ht ih => exact .trans ih ht
  | store _ _ _ ih => exact ih

theorem heap_run {h h' : Heap} {tr : List Store} (r : HeapRun h tr h') :
    AllocRun h.state h'.state := by
  induction r with
  | refl => exact .refl _
  | alloc _ ht ih => exact .trans ih ht
  | store _ _ _ ih => exact ih

theorem lastStore_append (tr : List Store) (w : Store) (i x : Nat) :
    lastStore (tr ++ [w]) i x =
      if w.block = i ∧ w.offset = x then some w.value else lastStore tr i x := by
  unfold lastStore
  rw [List.filter_append]
  by_cases h : w.block = i ∧ w.offset = x
  · rw [if_pos h, List.filter_cons_of_pos (by simpa using h)]
    simp
  · rw [if_neg h, List.filter_cons_of_neg (by simpa using h)]
    simp

/-- The byte at `x` holds what the last store to it wrote, whoever made it. -/
theorem heap_touched {h h' : Heap} {tr : List Store} (r : HeapRun h tr h') (x : Nat) :
    (∀ w ∈ tr, w.offset ≠ x) → h'.arena x = h.arena x := by
  induction r with
  | refl => exact fun _ => rfl
  | alloc _ _ ih => exact ih
  | store w _ _ ih =>
    intro hw
    have h1 : x ≠ w.offset := fun e => hw w (by simp) e.symm
    simp only [if_neg h1]
    exact ih fun w' h' => hw w' (by simp [h'])

/-- Every store was made by the owner. -/
theorem heap_owned {h h' : Heap} {tr : List Store} (r : HeapRun h tr h') :
    ∀ w ∈ tr, h'.state.Owns w.block w.offset := by
  induction r with
  | refl => simp
  | alloc _ ht ih => exact fun w hw => C49_permanent (.trans (.refl _) ht) (ih w hw)
  | store w _ ho ih =>
    intro w' hw
    rcases List.mem_append.1 hw with h1 | h1
    · exact ih w' h1
    · rw [List.mem_singleton.1 h1]; exact ho

/-- C64: whatever other threads allocate and store meanwhile, a byte of a block holds what the
owner of that block last stored there; as long as the owner has stored nothing there, it holds
what it held at the beginning. -/
theorem C64_private {h h' : Heap} {tr : List Store} (hr : AllocReachable h.state)
    (r : HeapRun h tr h') {i x : Nat} (ho : h'.state.Owns i x) :
    h'.arena x = (lastStore tr i x).getD (h.arena x) := by
  induction r with
  | refl => rfl
  | @alloc h' tr t r ht ih =>
    by_cases h1 : h'.state.Owns i x
    · exact ih h1
    · have h2 : ∀ w ∈ tr, w.offset ≠ x := by
        intro w hw e
        have h3 := heap_owned r w hw
        have h4 := C49_permanent (.trans (.refl _) ht) h3
        rw [e] at h3 h4
        by_cases h5 : w.block = i
        · exact h1 (h5 ▸ h3)
        · exact C49_disjoint (.trans (heap_reachable r hr) ht) h5 h4 ho
      rw [show (⟨t, h'.arena⟩ : Heap).arena x = h'.arena x from rfl, heap_touched r x h2]
      have h6 : lastStore tr i x = none := by
        unfold lastStore
        rw [List.filter_eq_nil_iff.2 (fun w hw => by simp [h2 w hw])]
        rfl
      rw [h6]; rfl
  | @store h' tr w r hw ih =>
    rw [lastStore_append]
    by_cases h1 : w.offset = x
    · have h2 : w.block = i := by
        refine Classical.byContradiction fun h2 => ?_
        rw [h1] at hw
        exact C49_disjoint (heap_reachable r hr) h2 hw ho
      simp only [h1, h2, and_self, if_true, Option.getD_some]
    · rw [if_neg fun h => h1 h.2]
      simp only [if_neg (fun e => h1 (Eq.symm e))]
      exact ih ho

/-- C64: memory is never recycled, so a byte of a block its owner has not stored to is zero:
nothing of what anyone else ever stored shows up in a new block. -/
theorem C64_fresh {h : Heap} {tr : List Store} (r : HeapRun .init tr h) {i x : Nat}
    (ho : h.state.Owns i x) (hn : ∀ w ∈ tr, w.block ≠ i) : h.arena x = 0 := by
  rw [C64_private .init r ho]
  have : lastStore tr i x = none := by
    unfold lastStore
    rw [List.filter_eq_nil_iff.2 (fun w hw => by simp [hn w hw])]
    rfl
  rw [this]; rfl

theorem sum_set_call {l : List AllocThread} {i : Nat} (h : i < l.length) (t : AllocThread) :
    ((l.set i t).map AllocThread.granted).sum + l[i].granted =
      (l.map AllocThread.granted).sum + t.granted := by
  induction l generalizing i with
  | nil => simp at h
  | cons a l ih =>
    cases i with
    | zero => simp only [List.set_cons_zero, List.map_cons, List.sum_cons, List.getElem_cons_zero]; omega
    | succ i =>
      have := ih (i := i) (by simpa using h)
      simp only [List.set_cons_succ, List.map_cons, List.sum_cons, List.getElem_cons_succ]
      omega

/-- C64: everything ever granted, freed or not, fits into the arena at once, together with what
remains. -/
theorem C64_budget {s : AllocState} (h : AllocReachable s) :
    s.granted + s.remaining.toNat ≤ 128 * 1024 := by
  induction h with
  | init =>
    rw [show AllocState.init.remaining.toNat = _ from arena_toNat]
    simp [AllocState.granted, AllocState.init]
  | @trans s s' hs ht ih =>
    have hinv := reachable_inv hs
    cases ht with
    | call l =>
      simp only [AllocState.granted, List.map_append, List.sum_append] at ih ⊢
      simpa [AllocThread.granted] using ih
    | step i hi rem pc hst =>
      have h1 := step_fine hst (hinv.calls i _ (List.getElem?_eq_getElem hi)) hinv.rem
      have h2 := sum_set_call hi ⟨s.calls[i].layout, pc⟩
      simp only [AllocState.granted] at ih ⊢
      have h3 : (⟨s.calls[i].layout, pc⟩ : AllocThread).granted + rem.toNat ≤
          s.remaining.toNat := by
        cases pc with
        | done o =>
          cases o with
          | none => simp only [AllocThread.granted]; omega
          | some a =>
            obtain ⟨h4, h5⟩ := h1.2.2.1 a rfl
            simp only [AllocThread.granted, h4]; omega
        | _ => simp only [AllocThread.granted]; omega
      omega

/-- C64: so only finitely many requests of `n` bytes or more are ever granted, even if every
block is freed at once. -/
theorem C64_exhaustion {s : AllocState} (h : AllocReachable s) (n : Nat) :
    (s.calls.filter fun t => (∃ o, t.pc = .done (some o)) ∧ n ≤ t.layout.size.toNat).length * n
      ≤ 128 * 1024 := by
  have key : ∀ l : List AllocThread,
      (l.filter fun t => (∃ o, t.pc = .done (some o)) ∧ n ≤ t.layout.size.toNat).length * n ≤
        (l.map AllocThread.granted).sum := by
    intro l
    induction l with
    | nil => simp
    | cons t l ih =>
      by_cases ht : (∃ o, t.pc = .done (some o)) ∧ n ≤ t.layout.size.toNat
      · rw [List.filter_cons_of_pos (by simpa using ht)]
        obtain ⟨⟨o, e⟩, hn⟩ := ht
        have : t.granted = t.layout.size.toNat := by simp only [AllocThread.granted, e]
        simp only [List.length_cons, List.map_cons, List.sum_cons, this, Nat.add_mul]
        omega
      · rw [List.filter_cons_of_neg (by simpa using ht)]
        simp only [List.map_cons, List.sum_cons]
        omega
  have := key s.calls
  have := C64_budget h
  simp only [AllocState.granted] at *
  omega

/-! ### C65: growing and zeroing blocks -/

theorem mem_inside (h : Heap) (base : Nat) (rest : Mem) {x : Nat} (hx : x < 131072) :
    h.mem base rest (base + x) = some (h.arena x) := by
  unfold Heap.mem
  rw [if_pos ⟨by omega, by rw [arena_toNat]; omega⟩]
  simp

/-- C65: `realloc` of a block: when the allocator has granted the new block, the copy is
defined behaviour, the new block starts with the contents of the old one, and no other byte
changes - neither in any other block nor outside the arena. -/
theorem C65_realloc {h : Heap} (hr : AllocReachable h.state) (base : Nat) (rest : Mem)
    {i j : Nat} {l l' : Layout} {a b : Nat} (hij : i ≠ j) (hi : h.state.Returned i l a)
    (hj : h.state.Returned j l' b) :
    ∃ m', move_block (h.mem base rest) base a b l l' = .ok (m', base + b) ∧
      (∀ k, k < l.size.toNat → k < l'.size.toNat →
        m' (base + (b + k)) = some (h.arena (a + k))) ∧
      (∀ n x, n ≠ j → h.state.Owns n x → m' (base + x) = some (h.arena x)) ∧
      (∀ q, (q < base ∨ base + 131072 ≤ q) → m' q = rest q) := by
  obtain ⟨hi1, _⟩ := C49_inside hr hi
  obtain ⟨hj1, _⟩ := C49_inside hr hj
  have hd := (reachable_inv hr).apart i j l l' a b hij hi hj
  have hmin : min l.size.toNat l'.size.toNat ≤ l.size.toNat := Nat.min_le_left _ _
  have hmin' : min l.size.toNat l'.size.toNat ≤ l'.size.toNat := Nat.min_le_right _ _
  have acc : ∀ c n, c + n ≤ 131072 → (h.mem base rest).Accessible (base + c) n := by
    intro c n hn k hk
    rw [Nat.add_assoc, mem_inside h base rest (by omega)]; simp
  obtain ⟨m', h1, h2, h3⟩ := C51_memcpy (m := h.mem base rest) (d := base + b) (s := base + a)
    (n := min l.size.toNat l'.size.toNat) (acc _ _ (by omega)) (acc _ _ (by omega))
    (fun x hx y hy => by omega)
  refine ⟨m', h1, fun k hk hk' => ?_, fun n x hn ho => ?_, fun q hq => ?_⟩
  · have := h2 k (by omega)
    rw [Nat.add_assoc, Nat.add_assoc, mem_inside h base rest (by omega)] at this
    exact this
  · have hx : x < 131072 := by
      obtain ⟨l2, c, h4, _, h5⟩ := ho
      have := (C49_inside hr h4).1
      omega
    rw [h3 _ (fun k hk e => ?_), mem_inside h base rest hx]
    have : h.state.Owns j x := ⟨l', b, hj, by omega, by omega⟩
    exact C49_disjoint hr hn ho this
  · rw [h3 _ (fun k hk e => by omega)]
    unfold Heap.mem
    rw [if_neg (by rw [arena_toNat]; omega)]

/-- C65: `alloc_zeroed`: the new block is all zeros and no other byte changes. -/
theorem C65_zeroed {h : Heap} (hr : AllocReachable h.state) (base : Nat) (rest : Mem)
    {j : Nat} {l : Layout} {b : Nat} (hj : h.state.Returned j l b) :
    ∃ m', zero_block (h.mem base rest) base b l = .ok (m', base + b) ∧
      (∀ x, h.state.Owns j x → m' (base + x) = some 0) ∧
      (∀ n x, n ≠ j → h.state.Owns n x → m' (base + x) = some (h.arena x)) ∧
      (∀ q, (q < base ∨ base + 131072 ≤ q) → m' q = rest q) := by
  obtain ⟨hj1, _⟩ := C49_inside hr hj
  obtain ⟨m', h1, h2, h3⟩ := C51_memset (m := h.mem base rest) (b := base + b) 0
    (n := l.size.toNat) (fun k hk => by
      rw [Nat.add_assoc, mem_inside h base rest (by omega)]; simp)
  refine ⟨m', h1, fun x ho => ?_, fun n x hn ho => ?_, fun q hq => ?_⟩
  · obtain ⟨l2, c, ⟨o, h4, h4'⟩, h5, h6⟩ := ho
    obtain ⟨o', h7, h7'⟩ := hj
    rw [h4] at h7
    cases h7
    obtain ⟨v, h8, h9⟩ := h2 (x - b) (by omega)
    rw [show base + b + (x - b) = base + x by omega] at h8
    rw [h8]
    exact congrArg some (BitVec.eq_of_toNat_eq h9)
  · have hx : x < 131072 := by
      obtain ⟨l2, c, h4, _, h5⟩ := ho
      have := (C49_inside hr h4).1
      omega
    rw [h3 _ (fun k hk e => ?_), mem_inside h base rest hx]
    have : h.state.Owns j x := ⟨l, b, hj, by omega, by omega⟩
    exact C49_disjoint hr hn ho this
  · rw [h3 _ (fun k hk e => by omega)]
    unfold Heap.mem
    rw [if_neg (by rw [arena_toNat]; omega)]

end

section
attribute [local instance] demoBuild

/-- Non-vacuity: a block of 8 bytes is allocated and written to, a block of 16 bytes is
allocated (as `realloc` does), and it can be moved there. -/
example : ∃ tr h, HeapRun .init tr h ∧ h.state.Returned 0 ⟨8, 8⟩ 131064 ∧
    h.state.Returned 1 ⟨16, 8⟩ 131048 ∧ tr = [⟨0, 131065, 7⟩, ⟨0, 131065, 9⟩, ⟨1, 131050, 5⟩] ∧
    h.arena 131065 = 9 ∧ h.arena 131064 = 0 ∧ h.state.granted = 24 := by
  have m8 : align_mask (8 : Usize) = .ok (~~~7) := align_mask_ok (l := ⟨100, 8⟩) ⟨3, rfl⟩
  have t0 := HeapRun.refl .init
  have t1 := t0.alloc (.call _ ⟨8, 8⟩)
  have t2 := t1.alloc (.step _ 0 (by decide) _ _ (.load _ _ m8 (by decide)))
  have t3 := t2.alloc (.step _ 0 (by decide) _ _
    (.propose _ _ _ 131064 (by rw [alloc_closure_ok]; decide)))
  have t4 := t3.alloc (.step _ 0 (by decide) _ _ (.cas_ok _ _ _))
  have t5 := t4.store ⟨0, 131065, 7⟩ ⟨⟨8, 8⟩, 131064, ⟨131064, rfl, rfl⟩, by decide⟩
  have t6 := t5.alloc (.call _ ⟨16, 8⟩)
  have t7 := t6.store ⟨0, 131065, 9⟩ ⟨⟨8, 8⟩, 131064, ⟨131064, rfl, rfl⟩, by decide⟩
  have t8 := t7.alloc (.step _ 1 (by decide) _ _ (.load _ _ m8 (by decide)))
  have t9 := t8.alloc (.step _ 1 (by decide) _ _
    (.propose _ _ _ 131048 (by rw [alloc_closure_ok]; decide)))
  have t10 := t9.alloc (.step _ 1 (by decide) _ _ (.cas_ok _ _ _))
  have t11 := t10.store ⟨1, 131050, 5⟩ ⟨⟨16, 8⟩, 131048, ⟨131048, rfl, rfl⟩, by decide⟩
  exact ⟨_, _, t11, ⟨131064, rfl, rfl⟩, ⟨131048, rfl, rfl⟩, rfl, rfl, rfl, rfl⟩

end

end ShogiCore
