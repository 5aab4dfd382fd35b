import Verif.Spec.Alloc
import Verif.Lemmas.Res

/- C49, C50: the arena allocator. -/

namespace ShogiCore

set_option linter.unusedSectionVars false

section
variable [P : Profile]

theorem arena_toNat : ARENA_SIZE.toNat = 131072 := by
  rcases P with ⟨⟨_ | _, _ | _⟩⟩ <;> decide +kernel

theorem max_align_toNat : MAX_SUPPORTED_ALIGN.toNat = 4096 := by
  rcases P with ⟨⟨_ | _, _ | _⟩⟩ <;> decide +kernel

theorem one_toNat : (1 : Usize).toNat = 1 := by
  rcases P with ⟨⟨_ | _, _ | _⟩⟩ <;> decide +kernel

/-- What is known about one call when the counter is at `rem`. -/
def AllocPc.Fine (rem : Usize) (l : Layout) : AllocPc → Prop
  | .start => True
  | .loaded mask prev => align_mask l.align = .ok mask ∧ l.align.toNat ≤ 4096 ∧
      rem.toNat ≤ prev.toNat ∧ prev.toNat ≤ 131072
  | .cas mask prev next => align_mask l.align = .ok mask ∧ l.align.toNat ≤ 4096 ∧
      rem.toNat ≤ prev.toNat ∧ prev.toNat ≤ 131072 ∧ l.size.toNat ≤ prev.toNat ∧
      next = (prev - l.size) &&& mask
  | .done none => 4096 < l.align.toNat ∨ rem.toNat < l.size.toNat
  | .done (some a) => l.align.toNat ≤ 4096 ∧ rem.toNat ≤ a.toNat ∧
      a.toNat + l.size.toNat ≤ 131072 ∧
      ∃ mask prev, align_mask l.align = .ok mask ∧ a = (prev - l.size) &&& mask ∧
        l.size.toNat ≤ prev.toNat
  | .panicked => l.align = 0

theorem and_le (a b : Usize) : (a &&& b).toNat ≤ a.toNat := by
  rw [BitVec.toNat_and]; exact Nat.and_le_left

theorem and_sub_add {prev size mask : Usize} (h : size.toNat ≤ prev.toNat) :
    ((prev - size) &&& mask).toNat + size.toNat ≤ prev.toNat := by
  have h1 := and_le (prev - size) mask
  have h2 : (prev - size).toNat = prev.toNat - size.toNat := by
    rw [BitVec.toNat_sub_of_le h]
  omega

theorem alloc_closure_ok (l : Layout) (mask prev : Usize) :
    alloc_closure l mask prev = .ok (if prev.toNat < l.size.toNat then none
      else some ((prev - l.size) &&& mask)) := by
  unfold alloc_closure
  by_cases h : prev.toNat < l.size.toNat
  · simp only [h, if_true, Res.pure_eq]
  · simp only [h, if_false, csub_ok (Nat.le_of_not_lt h), Res.bind_ok, Res.pure_eq]

/-- Everything stays true when the counter goes down. -/
theorem AllocPc.Fine.mono {rem rem' : Usize} {l : Layout} {pc : AllocPc} (h : pc.Fine rem l)
    (hr : rem'.toNat ≤ rem.toNat) : pc.Fine rem' l := by
  cases pc with
  | start => trivial
  | loaded mask prev => obtain ⟨h1, h2, h3, h4⟩ := h; exact ⟨h1, h2, by omega, h4⟩
  | cas mask prev next => obtain ⟨h1, h2, h3, h4⟩ := h; exact ⟨h1, h2, by omega, h4⟩
  | done r =>
    cases r with
    | none => exact h.imp id fun h => by omega
    | some a => obtain ⟨h1, h2, h3⟩ := h; exact ⟨h1, by omega, h3⟩
  | panicked => exact h

theorem step_fine {l : Layout} {rem rem' : Usize} {pc pc' : AllocPc}
    (h : AllocStep l (rem, pc) (rem', pc')) (hf : pc.Fine rem l) (hr : rem.toNat ≤ 131072) :
    rem'.toNat ≤ rem.toNat ∧ pc'.Fine rem' l ∧
    (∀ a, pc' = .done (some a) → rem' = a ∧ a.toNat + l.size.toNat ≤ rem.toNat) ∧
    (rem' ≠ rem → pc' = .done (some rem')) := by
  cases h with
  | mask_panic _ e =>
    refine ⟨Nat.le_refl _, ?_, by simp, by simp⟩
    show l.align = 0
    unfold align_mask csub at e
    have h : l.align.toNat = 0 := by
      apply Classical.byContradiction
      intro h1
      rw [if_neg (by rw [one_toNat]; simp; omega)] at e; cases e
    exact BitVec.eq_of_toNat_eq (h.trans (by simp))
  | too_aligned _ mask e h => rw [max_align_toNat] at h; exact ⟨Nat.le_refl _, .inl h, by simp, by simp⟩
  | load _ mask e h =>
    rw [max_align_toNat] at h
    exact ⟨Nat.le_refl _, ⟨e, Nat.le_of_not_lt h, Nat.le_refl _, hr⟩, by simp, by simp⟩
  | exhausted _ mask prev e =>
    refine ⟨Nat.le_refl _, .inr ?_, by simp, by simp⟩
    rw [alloc_closure_ok] at e
    by_cases h : prev.toNat < l.size.toNat
    · obtain ⟨_, _, h3, _⟩ := hf; omega
    · rw [if_neg h] at e; cases e
  | closure_panic _ mask prev e => rw [alloc_closure_ok] at e; cases e
  | propose _ mask prev next e =>
    refine ⟨Nat.le_refl _, ?_, by simp, by simp⟩
    obtain ⟨h1, h2, h3, h4⟩ := hf
    rw [alloc_closure_ok] at e
    by_cases h : prev.toNat < l.size.toNat
    · rw [if_pos h] at e; cases e
    · rw [if_neg h] at e; cases e
      exact ⟨h1, h2, h3, h4, Nat.le_of_not_lt h, rfl⟩
  | cas_ok mask _ next =>
    obtain ⟨h1, h2, h3, h4, h5, h6⟩ := hf
    have := and_sub_add (mask := mask) h5
    rw [← h6] at this
    exact ⟨by omega, ⟨h2, Nat.le_refl _, by omega, mask, _, h1, h6, h5⟩,
      by intro a e; cases e; exact ⟨rfl, this⟩, fun _ => rfl⟩
  | cas_fail _ mask prev next =>
    obtain ⟨h1, h2, h3, h4, h5, h6⟩ := hf
    exact ⟨Nat.le_refl _, ⟨h1, h2, Nat.le_refl _, hr⟩, by simp, by simp⟩

open AllocState

/-- The invariant of the allocator. -/
structure AllocState.Inv (s : AllocState) : Prop where
  rem : s.remaining.toNat ≤ 131072
  calls : ∀ (i : Nat) (t : AllocThread), s.calls[i]? = some t → t.pc.Fine s.remaining t.layout
  apart : ∀ i j l l' a b, i ≠ j → s.Returned i l a → s.Returned j l' b →
    a + l.size.toNat ≤ b ∨ b + l'.size.toNat ≤ a

theorem getElem?_set_call {l : List AllocThread} {i : Nat} (h : i < l.length) (t : AllocThread)
    (j : Nat) : (l.set i t)[j]? = if i = j then some t else l[j]? := by
  rw [List.getElem?_set]
  by_cases e : i = j
  · subst e; simp [h]
  · simp [e]

theorem trans_inv {s t : AllocState} (hs : s.Inv) (h : AllocTrans s t) : t.Inv := by
  cases h with
  | call l =>
    have key : ∀ (i : Nat) (u : AllocThread), (s.calls ++ [⟨l, .start⟩])[i]? = some u → s.calls[i]? = some u ∨
        u = ⟨l, .start⟩ := by
      intro i u hu
      rw [List.getElem?_append] at hu
      split at hu
      · exact .inl hu
      · have : u ∈ [(⟨l, .start⟩ : AllocThread)] := List.mem_of_getElem? hu
        exact .inr (by simpa using this)
    have ret : ∀ i l' a, Returned ⟨s.remaining, s.calls ++ [⟨l, .start⟩]⟩ i l' a →
        s.Returned i l' a := by
      rintro i l' a ⟨o, ho, rfl⟩
      rcases key i _ ho with h | h
      · exact ⟨o, h, rfl⟩
      · cases h
    refine ⟨hs.rem, ?_, ?_⟩
    · intro i u hu
      rcases key i u hu with h | rfl
      · exact hs.calls i u h
      · trivial
    · intro i j l1 l2 a b hij h1 h2
      exact hs.apart i j l1 l2 a b hij (ret _ _ _ h1) (ret _ _ _ h2)
  | step i hi rem pc hstep =>
    have hcall := hs.calls i s.calls[i] (List.getElem?_eq_getElem hi)
    obtain ⟨h1, h2, h3, _⟩ := step_fine hstep hcall hs.rem
    refine ⟨Nat.le_trans h1 hs.rem, ?_, ?_⟩
    · intro j u hu
      rw [getElem?_set_call hi] at hu
      split at hu
      · cases hu; exact h2
      · exact (hs.calls j u hu).mono h1
    · have below : ∀ j l' b, s.Returned j l' b → s.remaining.toNat ≤ b := by
        rintro j l' b ⟨o, ho, rfl⟩
        exact (hs.calls j _ ho).2.1
      intro j k l1 l2 a b hjk ha hb
      obtain ⟨o, ho, ea⟩ := ha
      obtain ⟨o', ho', eb⟩ := hb
      simp only [getElem?_set_call hi] at ho ho'
      by_cases e1 : i = j
      · rw [if_pos e1] at ho
        rw [if_neg (fun e2 => hjk (e1.symm.trans e2))] at ho'
        have ho := AllocThread.mk.inj (Option.some.inj ho)
        have := h3 o ho.2
        have hb := below k l2 b ⟨o', ho', eb⟩
        left; rw [← ho.1]; omega
      · rw [if_neg e1] at ho
        by_cases e2 : i = k
        · rw [if_pos e2] at ho'
          have ho' := AllocThread.mk.inj (Option.some.inj ho')
          have := h3 o' ho'.2
          have ha := below j l1 a ⟨o, ho, ea⟩
          right; rw [← ho'.1]; omega
        · rw [if_neg e2] at ho'
          exact hs.apart j k l1 l2 a b hjk ⟨o, ho, ea⟩ ⟨o', ho', eb⟩

theorem reachable_inv {s : AllocState} (h : AllocReachable s) : s.Inv := by
  induction h with
  | init =>
    refine ⟨Nat.le_of_eq arena_toNat, ?_, ?_⟩
    · intro i t ht; simp [AllocState.init] at ht
    · rintro i j l l' a b _ ⟨o, ho, _⟩; simp [AllocState.init] at ho
  | trans _ ht ih => exact trans_inv ih ht

/-- C49: no byte belongs to the blocks of two calls, under any interleaving of any number of
calls with any layouts. -/
theorem C49_disjoint {s : AllocState} (h : AllocReachable s) {i j x : Nat} (hij : i ≠ j)
    (hi : s.Owns i x) : ¬ s.Owns j x := by
  rintro ⟨l', b, hb, h3, h4⟩
  obtain ⟨l, a, ha, h1, h2⟩ := hi
  have := (reachable_inv h).apart i j l l' a b hij ha hb
  omega

/-- C49: every block lies in the arena and has room for the requested size, and only layouts
with alignment up to 4096 get a block. -/
theorem C49_inside {s : AllocState} (h : AllocReachable s) {i : Nat} {l : Layout} {a : Nat}
    (hr : s.Returned i l a) : a + l.size.toNat ≤ 128 * 1024 ∧ l.align.toNat ≤ 4096 := by
  obtain ⟨o, ho, rfl⟩ := hr
  obtain ⟨h1, _, h2, _⟩ := (reachable_inv h).calls i _ ho
  exact ⟨h2, h1⟩

/-- C49: a call only fails if the alignment exceeds 4096 or what is left of the arena is
smaller than the requested size. -/
theorem C49_failure {s : AllocState} (h : AllocReachable s) {i : Nat} {l : Layout}
    (hr : s.ReturnedNull i l) : 4096 < l.align.toNat ∨ s.remaining.toNat < l.size.toNat :=
  (reachable_inv h).calls i _ hr

theorem trans_keeps {s t : AllocState} (h : AllocTrans s t) :
    (∀ i l a, s.Returned i l a → t.Returned i l a) ∧
    (∀ i l, s.ReturnedNull i l → t.ReturnedNull i l) := by
  cases h with
  | call l =>
    have key : ∀ (i : Nat) u, s.calls[i]? = some u →
        (s.calls ++ [(⟨l, .start⟩ : AllocThread)])[i]? = some u := by
      intro i u hu
      obtain ⟨hi, _⟩ := List.getElem?_eq_some_iff.1 hu
      rw [List.getElem?_append_left hi]; exact hu
    exact ⟨fun i l' a ⟨o, ho, e⟩ => ⟨o, key i _ ho, e⟩, fun i l' h => key i _ h⟩
  | step i hi rem pc hstep =>
    have key : ∀ (j : Nat) l r, s.calls[j]? = some ⟨l, .done r⟩ →
        (s.calls.set i ⟨s.calls[i].layout, pc⟩)[j]? = some ⟨l, .done r⟩ := by
      intro j l r hj
      rw [getElem?_set_call hi]
      by_cases e : i = j
      · exfalso
        subst e
        rw [List.getElem?_eq_getElem hi] at hj
        rw [Option.some.inj hj] at hstep
        generalize s.remaining = x at hstep
        cases hstep
      · rw [if_neg e]; exact hj
    exact ⟨fun j l' a ⟨o, ho, e⟩ => ⟨o, key j _ _ ho, e⟩, fun j l' h => key j _ _ h⟩

/-- C49: blocks are never taken back or moved. -/
theorem C49_permanent {s t : AllocState} (h : AllocRun s t) {i x : Nat} (ho : s.Owns i x) :
    t.Owns i x := by
  obtain ⟨l, a, ha, hx⟩ := ho
  refine ⟨l, a, ?_, hx⟩
  induction h with
  | refl => exact ha
  | trans _ ht ih => exact (trans_keeps ht).1 _ _ _ ih

/-- C49: a failure is final and justified at every later time: the arena never grows back. -/
theorem C49_failure_permanent {s t : AllocState} (hs : AllocReachable s) (h : AllocRun s t) {i : Nat}
    {l : Layout} (hr : s.ReturnedNull i l) :
    t.ReturnedNull i l ∧ (4096 < l.align.toNat ∨ t.remaining.toNat < l.size.toNat) := by
  have key : AllocReachable t ∧ t.ReturnedNull i l := by
    induction h with
    | refl => exact ⟨hs, hr⟩
    | trans _ ht ih => exact ⟨.trans ih.1 ht, (trans_keeps ht).2 _ _ ih.2⟩
  exact ⟨key.2, C49_failure key.1 key.2⟩

/-- C49: no call panics if its alignment is positive. -/
theorem C49_no_panic {s : AllocState} (h : AllocReachable s) {i : Nat} {l : Layout}
    (hl : l.Valid) : s.calls[i]? ≠ some ⟨l, .panicked⟩ := by
  intro hp
  have : l.align = 0 := (reachable_inv h).calls i _ hp
  obtain ⟨k, hk⟩ := hl
  rw [this] at hk
  have := Nat.two_pow_pos k
  simp at hk
  omega

theorem align_mask_ok {l : Layout} (hl : l.Valid) :
    align_mask l.align = .ok (~~~(l.align - (1 : Usize))) := by
  obtain ⟨k, hk⟩ := hl
  have := Nat.two_pow_pos k
  unfold align_mask
  rw [csub_ok (by rw [one_toNat]; omega)]; rfl

theorem mask_aligns {a align : Usize} {k : Nat} (hk : align.toNat = 2 ^ k) :
    (a &&& ~~~(align - (1 : Usize))).toNat % align.toNat = 0 := by
  have hlt : k < Profile.bits := by
    have := align.isLt; rw [hk] at this
    exact (Nat.pow_lt_pow_iff_right (by decide)).1 this
  have hm : (align - (1 : Usize)).toNat = 2 ^ k - 1 := by
    have := Nat.two_pow_pos k
    rw [BitVec.toNat_sub_of_le (by show (1 : Usize).toNat ≤ _; rw [one_toNat]; omega), hk, one_toNat]
  rw [hk]
  apply Nat.eq_of_testBit_eq
  intro i
  rw [Nat.testBit_mod_two_pow, Nat.zero_testBit]
  by_cases hi : i < k
  · simp only [hi, decide_true, Bool.true_and]
    show (a &&& ~~~(align - (1 : Usize))).getLsbD i = false
    rw [BitVec.getLsbD_and, BitVec.getLsbD_not, BitVec.getLsbD, BitVec.getLsbD, hm,
      Nat.testBit_two_pow_sub_one]
    simp [hi]
  · simp [hi]

theorem mask_low {a align : Usize} {k : Nat} (hk : align.toNat = 2 ^ k) :
    a.toNat < (a &&& ~~~(align - (1 : Usize))).toNat + align.toNat := by
  have hm : (align - (1 : Usize)).toNat = 2 ^ k - 1 := by
    have := Nat.two_pow_pos k
    rw [BitVec.toNat_sub_of_le (by show (1 : Usize).toNat ≤ _; rw [one_toNat]; omega), hk, one_toNat]
  have key : a.toNat = (a &&& ~~~(align - (1 : Usize))).toNat + a.toNat % 2 ^ k := by
    have h0 := mask_aligns (a := a) hk
    have : (a &&& ~~~(align - (1 : Usize))).toNat / 2 ^ k = a.toNat / 2 ^ k := by
      apply Nat.eq_of_testBit_eq
      intro i
      rw [Nat.testBit_div_two_pow, Nat.testBit_div_two_pow]
      show (a &&& ~~~(align - (1 : Usize))).getLsbD (i + k) = a.getLsbD (i + k)
      rw [BitVec.getLsbD_and, BitVec.getLsbD_not,
        show (align - (1 : Usize)).getLsbD (i + k) = (align - (1 : Usize)).toNat.testBit (i + k) from rfl, hm,
        Nat.testBit_two_pow_sub_one]
      by_cases h : i + k < Profile.bits
      · simp [h]
      · rw [BitVec.getLsbD_of_ge _ _ (by omega)]; simp
    rw [hk] at h0
    have e1 := Nat.div_add_mod (a &&& ~~~(align - (1 : Usize))).toNat (2 ^ k)
    have e2 := Nat.div_add_mod a.toNat (2 ^ k)
    rw [h0, this] at e1
    omega
  have := Nat.mod_lt a.toNat (Nat.two_pow_pos k)
  omega

/-- C49: when the call runs without interference it returns a block exactly if the
alignment is at most 4096 and the size fits into what is left; the block ends at most
`align - 1` bytes below what was left. -/
theorem C49_solo {s : AllocState} (l : Layout) (hl : l.Valid) :
    ∃ t, AllocSolo s.calls.length { s with calls := s.calls ++ [⟨l, .start⟩] } t ∧
      ((l.align.toNat ≤ 4096 ∧ l.size.toNat ≤ s.remaining.toNat ∧
        ∃ a, t.Returned s.calls.length l a ∧ t.remaining.toNat = a ∧
          a + l.size.toNat ≤ s.remaining.toNat ∧
          s.remaining.toNat < a + l.size.toNat + l.align.toNat) ∨
       ((4096 < l.align.toNat ∨ s.remaining.toNat < l.size.toNat) ∧
        t.ReturnedNull s.calls.length l ∧ t.remaining = s.remaining)) := by
  have hi : s.calls.length < (s.calls ++ [(⟨l, .start⟩ : AllocThread)]).length := by simp
  have hm := align_mask_ok hl
  -- one step of the last call
  have last : ∀ (t : AllocState) (pc pc' : AllocPc) (rem : Usize),
      AllocSolo s.calls.length { s with calls := s.calls ++ [⟨l, .start⟩] } t →
      t.calls = s.calls ++ [⟨l, pc⟩] → AllocStep l (t.remaining, pc) (rem, pc') →
      AllocSolo s.calls.length { s with calls := s.calls ++ [⟨l, .start⟩] }
        ⟨rem, s.calls ++ [⟨l, pc'⟩]⟩ := by
    intro t pc pc' rem hr ht hst
    have hlen : s.calls.length < t.calls.length := by rw [ht]; simp
    have hget : t.calls[s.calls.length] = ⟨l, pc⟩ := by simp [ht]
    have := AllocSolo.step hlen rem pc' hr (by rw [hget]; exact hst)
    rw [hget] at this
    simpa [ht] using this
  have start := AllocSolo.refl (i := s.calls.length)
    ({ s with calls := s.calls ++ [⟨l, .start⟩] } : AllocState)
  by_cases h1 : 4096 < l.align.toNat
  · refine ⟨_, last _ _ _ _ start rfl (.too_aligned _ _ hm (by rw [max_align_toNat]; exact h1)), .inr ⟨.inl h1, ?_, rfl⟩⟩
    simp [ReturnedNull]
  have s1 := last _ _ _ _ start rfl (.load _ _ hm (by rw [max_align_toNat]; exact h1))
  by_cases h2 : s.remaining.toNat < l.size.toNat
  · refine ⟨_, last _ _ _ _ s1 rfl (.exhausted _ _ _ (by rw [alloc_closure_ok, if_pos h2])),
      .inr ⟨.inr h2, ?_, rfl⟩⟩
    simp [ReturnedNull]
  have s2 := last _ _ _ _ s1 rfl (.propose _ _ _ _ (by rw [alloc_closure_ok, if_neg h2]))
  refine ⟨_, last _ _ _ _ s2 rfl (.cas_ok _ _ _), .inl ⟨Nat.le_of_not_lt h1, Nat.le_of_not_lt h2,
    ((s.remaining - l.size) &&& ~~~(l.align - (1 : Usize))).toNat, ⟨_, by simp, rfl⟩, rfl,
    and_sub_add (Nat.le_of_not_lt h2), ?_⟩⟩
  obtain ⟨k, hk⟩ := hl
  have h3 := mask_low (a := s.remaining - l.size) hk
  rw [BitVec.toNat_sub_of_le (Nat.le_of_not_lt h2)] at h3
  omega

/-- C49: the outcome is decided by what is left of the arena at the moment the call returns. -/
theorem C49_exact {s t : AllocState} (h : AllocReachable s) (ht : AllocTrans s t) {i : Nat}
    {l : Layout} (hn : ∀ r, s.calls[i]? ≠ some ⟨l, .done r⟩) :
    (∀ a, t.Returned i l a → l.align.toNat ≤ 4096 ∧ a + l.size.toNat ≤ s.remaining.toNat ∧
      t.remaining.toNat = a) ∧
    (t.ReturnedNull i l → (4096 < l.align.toNat ∨ s.remaining.toNat < l.size.toNat) ∧
      t.remaining = s.remaining) := by
  have hs := reachable_inv h
  cases ht with
  | call l' =>
    have key : ∀ r, (s.calls ++ [(⟨l', .start⟩ : AllocThread)])[i]? ≠ some ⟨l, .done r⟩ := by
      intro r hr
      rw [List.getElem?_append] at hr
      split at hr
      · exact hn r hr
      · have : (⟨l, .done r⟩ : AllocThread) ∈ [(⟨l', .start⟩ : AllocThread)] :=
          List.mem_of_getElem? hr
        simp at this
    exact ⟨fun a ⟨o, ho, _⟩ => absurd ho (key _), fun hr => absurd hr (key _)⟩
  | step j hj rem pc hstep =>
    have hcall := hs.calls j s.calls[j] (List.getElem?_eq_getElem hj)
    obtain ⟨h1, h2, h3, h4⟩ := step_fine hstep hcall hs.rem
    have key : ∀ r, (s.calls.set j ⟨s.calls[j].layout, pc⟩)[i]? = some ⟨l, .done r⟩ →
        s.calls[j].layout = l ∧ pc = .done r := by
      intro r hr
      rw [getElem?_set_call hj] at hr
      split at hr
      · have := AllocThread.mk.inj (Option.some.inj hr); exact this
      · exact absurd hr (hn r)
    refine ⟨?_, ?_⟩
    · rintro a ⟨o, ho, rfl⟩
      obtain ⟨e1, e2⟩ := key _ ho
      obtain ⟨h5, h6⟩ := h3 o e2
      rw [e1] at h6 h2
      rw [e2] at h2
      exact ⟨h2.1, h6, by rw [h5]⟩
    · intro hr
      obtain ⟨e1, e2⟩ := key _ hr
      have e3 : rem = s.remaining := by
        apply Classical.byContradiction
        intro hne
        have := h4 hne
        rw [e2] at this; cases this
      rw [e1, e2, e3] at h2
      exact ⟨h2, e3⟩

/-- C49: a call is never stuck: whatever the others have done, it returns within three steps
of its own if it is then left alone. -/
theorem C49_progress {s : AllocState} (h : AllocReachable s) {i : Nat} {l : Layout} {pc : AllocPc}
    (hl : l.Valid) (hi : s.calls[i]? = some ⟨l, pc⟩) :
    ∃ t r, AllocSolo i s t ∧ t.calls[i]? = some ⟨l, .done r⟩ := by
  have hs := reachable_inv h
  obtain ⟨hlt, _⟩ := List.getElem?_eq_some_iff.1 hi
  -- one step of this call
  have one : ∀ (t : AllocState) (pc pc' : AllocPc) (rem : Usize), AllocSolo i s t →
      t.calls[i]? = some ⟨l, pc⟩ → AllocStep l (t.remaining, pc) (rem, pc') →
      ∃ t', AllocSolo i s t' ∧ t'.calls[i]? = some ⟨l, pc'⟩ ∧ t'.remaining = rem := by
    intro t pc pc' rem hr ht hst
    obtain ⟨hlen, hget⟩ := List.getElem?_eq_some_iff.1 ht
    have := AllocSolo.step hlen rem pc' hr (by rw [hget]; exact hst)
    refine ⟨_, this, ?_, rfl⟩
    simp only [getElem?_set_call hlen, hget, if_true]
  have hm := align_mask_ok hl
  -- from the closure on, with an up-to-date value
  have fresh : ∀ (t : AllocState) (mask : Usize), AllocSolo i s t →
      t.calls[i]? = some ⟨l, .loaded mask t.remaining⟩ →
      ∃ t r, AllocSolo i s t ∧ t.calls[i]? = some ⟨l, .done r⟩ := by
    intro t mask hr ht
    by_cases h2 : t.remaining.toNat < l.size.toNat
    · obtain ⟨t', h3, h4, _⟩ := one t _ _ _ hr ht
        (.exhausted _ _ _ (by rw [alloc_closure_ok, if_pos h2]))
      exact ⟨t', _, h3, h4⟩
    · obtain ⟨t', h3, h4, h5⟩ := one t _ _ _ hr ht
        (.propose _ _ _ _ (by rw [alloc_closure_ok, if_neg h2]))
      rw [← h5] at h4
      obtain ⟨t'', h6, h7, _⟩ := one t' _ _ _ h3 h4 (.cas_ok _ _ _)
      exact ⟨t'', _, h6, h7⟩
  have retry : ∀ (t : AllocState) (mask prev next : Usize), AllocSolo i s t →
      t.calls[i]? = some ⟨l, .cas mask prev next⟩ →
      ∃ t r, AllocSolo i s t ∧ t.calls[i]? = some ⟨l, .done r⟩ := by
    intro t mask prev next hr ht
    obtain ⟨t', h3, h4, h5⟩ := one t _ _ _ hr ht (.cas_fail _ _ _ _)
    rw [← h5] at h4
    exact fresh t' mask h3 h4
  cases pc with
  | start =>
    by_cases h1 : 4096 < l.align.toNat
    · obtain ⟨t, h2, h3, _⟩ := one s _ _ _ (.refl s) hi (.too_aligned _ _ hm (by rw [max_align_toNat]; exact h1))
      exact ⟨t, _, h2, h3⟩
    · obtain ⟨t, h2, h3, h4⟩ := one s _ _ _ (.refl s) hi (.load _ _ hm (by rw [max_align_toNat]; exact h1))
      rw [← h4] at h3
      exact fresh t _ h2 h3
  | loaded mask prev =>
    by_cases h2 : prev.toNat < l.size.toNat
    · obtain ⟨t', h3, h4, _⟩ := one s _ _ _ (.refl s) hi
        (.exhausted _ _ _ (by rw [alloc_closure_ok, if_pos h2]))
      exact ⟨t', _, h3, h4⟩
    · obtain ⟨t', h3, h4, h5⟩ := one s _ _ _ (.refl s) hi
        (.propose _ _ _ _ (by rw [alloc_closure_ok, if_neg h2]))
      exact retry t' _ _ _ h3 h4
  | cas mask prev next => exact retry s _ _ _ (.refl s) hi
  | done r => exact ⟨s, r, .refl s, hi⟩
  | panicked => exact absurd hi (C49_no_panic h hl)

/-- C50: the offset of every block is a multiple of the requested alignment. -/
theorem C50_offset {s : AllocState} (h : AllocReachable s) {i : Nat} {l : Layout} {a : Nat}
    (hl : l.Valid) (hr : s.Returned i l a) : a % l.align.toNat = 0 := by
  obtain ⟨o, ho, rfl⟩ := hr
  obtain ⟨_, _, _, mask, prev, hm, e, _⟩ := (reachable_inv h).calls i _ ho
  rw [align_mask_ok hl] at hm
  cases hm
  obtain ⟨k, hk⟩ := hl
  rw [e]; exact mask_aligns hk

/-- C50: the address of a block (in an arena at address `base`) is a multiple of the requested
alignment if and only if `base` is. -/
theorem C50_address {s : AllocState} (h : AllocReachable s) {i : Nat} {l : Layout} {a : Nat}
    (hl : l.Valid) (hr : s.Returned i l a) (base : Nat) :
    (base + a) % l.align.toNat = 0 ↔ base % l.align.toNat = 0 := by
  have := C50_offset h hl hr
  rw [Nat.add_mod, this, Nat.add_zero, Nat.mod_mod]

/-- C50: a sufficient condition that covers all layouts: a page-aligned arena. -/
theorem C50_page {s : AllocState} (h : AllocReachable s) {i : Nat} {l : Layout} {a : Nat}
    (hl : l.Valid) (hr : s.Returned i l a) {base : Nat} (hb : base % 4096 = 0) :
    (base + a) % l.align.toNat = 0 := by
  rw [C50_address h hl hr]
  obtain ⟨k, hk⟩ := hl
  have h4 := (C49_inside h hr).2
  rw [hk] at h4 ⊢
  have : k ≤ 12 := (Nat.pow_le_pow_iff_right (by decide : 1 < 2)).1 (show 2 ^ k ≤ 2 ^ 12 from h4)
  have hd : 2 ^ k ∣ 4096 := Nat.pow_dvd_pow 2 this
  exact Nat.mod_eq_zero_of_dvd (Nat.dvd_trans hd (Nat.dvd_of_mod_eq_zero hb))

theorem solo_reachable {i : Nat} {s t : AllocState} (hs : AllocReachable s) (h : AllocSolo i s t) :
    AllocReachable t := by
  induction h with
  | refl => exact hs
  | step hlen rem pc _ hst ih => exact .trans ih (.step _ _ hlen rem pc hst)

/-- C50: addresses are not aligned in general.  The arena is a byte array, so it may be placed
at any address; whenever that address is odd, the very first block of alignment 2 is
misaligned. -/
theorem C50_refuted (base : Nat) (hb : base % 2 = 1) :
    ∃ s a, AllocReachable s ∧ s.Returned 0 ⟨8, 2⟩ a ∧ (base + a) % 2 ≠ 0 := by
  have hv : Layout.Valid ⟨8, 2⟩ := ⟨1, usize_toNat (by decide)⟩
  obtain ⟨t, h1, h2⟩ := C49_solo (s := .init) ⟨8, 2⟩ hv
  have hr : AllocReachable t := solo_reachable (.trans .init (.call _ _)) h1
  rcases h2 with ⟨_, _, a, h3, _⟩ | ⟨h3, _⟩
  · refine ⟨t, a, hr, h3, ?_⟩
    have := C50_address hr hv h3 base
    rw [show ((⟨8, 2⟩ : Layout).align.toNat) = 2 from usize_toNat (by decide)] at this
    rw [ne_eq, this]; omega
  · refine absurd h3 ?_
    rw [show ((⟨8, 2⟩ : Layout).align.toNat) = 2 from usize_toNat (by decide),
      show ((⟨8, 2⟩ : Layout).size.toNat) = 8 from usize_toNat (by decide),
      show AllocState.init.remaining.toNat = _ from arena_toNat]
    decide

end

section
attribute [local instance] demoBuild

/-- Non-vacuity: two calls race.  Both load the full arena; the second wins, so the
exchange of the first fails and it retries; both end up with blocks. -/
example : ∃ s, AllocReachable s ∧ s.Returned 0 ⟨100, 8⟩ 130904 ∧ s.Returned 1 ⟨64, 64⟩ 131008 ∧
    s.Owns 0 130904 ∧ s.Owns 1 131071 := by
  have m8 : align_mask (8 : Usize) = .ok (~~~7) := align_mask_ok (l := ⟨100, 8⟩) ⟨3, rfl⟩
  have m64 : align_mask (64 : Usize) = .ok (~~~63) := align_mask_ok (l := ⟨64, 64⟩) ⟨6, rfl⟩
  have t0 := AllocReachable.init
  have t1 := AllocReachable.trans t0 (.call _ ⟨100, 8⟩)
  have t2 := AllocReachable.trans t1 (.call _ ⟨64, 64⟩)
  have t3 := AllocReachable.trans t2 (.step _ 0 (by decide) _ _ (.load _ _ m8 (by decide)))
  have t4 := AllocReachable.trans t3 (.step _ 1 (by decide) _ _ (.load _ _ m64 (by decide)))
  have t5 := AllocReachable.trans t4 (.step _ 0 (by decide) _ _
    (.propose _ _ _ 130968 (by rw [alloc_closure_ok]; decide)))
  have t6 := AllocReachable.trans t5 (.step _ 1 (by decide) _ _
    (.propose _ _ _ 131008 (by rw [alloc_closure_ok]; decide)))
  have t7 := AllocReachable.trans t6 (.step _ 1 (by decide) _ _ (.cas_ok _ _ _))
  have t8 := AllocReachable.trans t7 (.step _ 0 (by decide) _ _ (.cas_fail _ _ _ _))
  have t9 := AllocReachable.trans t8 (.step _ 0 (by decide) _ _
    (.propose _ _ _ 130904 (by rw [alloc_closure_ok]; decide)))
  have t10 := AllocReachable.trans t9 (.step _ 0 (by decide) _ _ (.cas_ok _ _ _))
  exact ⟨_, t10, ⟨130904, rfl, rfl⟩, ⟨131008, rfl, rfl⟩,
    ⟨⟨100, 8⟩, 130904, ⟨130904, rfl, rfl⟩, by decide⟩,
    ⟨⟨64, 64⟩, 131008, ⟨131008, rfl, rfl⟩, by decide⟩⟩

/-- Non-vacuity: failures, by alignment and by size. -/
example : ∃ s, AllocReachable s ∧ s.ReturnedNull 0 ⟨1, 8192⟩ ∧ s.ReturnedNull 1 ⟨131073, 1⟩ := by
  have t1 := AllocReachable.trans .init (.call _ ⟨1, 8192⟩)
  have t2 := AllocReachable.trans t1 (.call _ ⟨131073, 1⟩)
  have t3 := AllocReachable.trans t2 (.step _ 0 (by decide) _ _
    (.too_aligned _ _ (align_mask_ok (l := ⟨1, 8192⟩) ⟨13, rfl⟩) (by decide)))
  have t4 := AllocReachable.trans t3 (.step _ 1 (by decide) _ _
    (.load _ _ (align_mask_ok (l := ⟨131073, 1⟩) ⟨0, rfl⟩) (by decide)))
  have t5 := AllocReachable.trans t4 (.step _ 1 (by decide) _ _
    (.exhausted _ _ _ (by rw [alloc_closure_ok]; decide)))
  exact ⟨_, t5, rfl, rfl⟩

end

end ShogiCore
