import Verif.Spec.Progress
import Verif.Props.Alloc

/- C67: calls of the arena allocator finish. -/

namespace ShogiCore

set_option linter.unusedSectionVars false

section
variable [P : Profile]

open AllocState

theorem StepBy.trans {s t : AllocState} {i : Nat} (h : s.StepBy i t) : AllocTrans s t := by
  obtain ⟨hi, rem, pc, hst, rfl⟩ := h
  exact .step s i hi rem pc hst

/-! ### One call against any number of others -/

/-- Upper bound for the steps one call still has to take. -/
def budgetOf (rem : Usize) : Option AllocThread → Nat
  | none => 3 + 2 * rem.toNat
  | some c =>
    match c.pc with
    | .start => 3 + 2 * rem.toNat
    | .loaded _ prev => 2 + 2 * prev.toNat
    | .cas _ prev _ => 1 + 2 * prev.toNat
    | .done _ => 0
    | .panicked => 0

theorem budgetOf_mono {rem rem' : Usize} (h : rem'.toNat ≤ rem.toNat) (o : Option AllocThread) :
    budgetOf rem' o ≤ budgetOf rem o := by
  cases o with
  | none => simp only [budgetOf]; omega
  | some c => cases c with | mk l pc => cases pc <;> simp only [budgetOf] <;> omega

theorem StepBy.other {s t : AllocState} {i j : Nat} (h : s.StepBy j t) (hij : j ≠ i) :
    t.calls[i]? = s.calls[i]? := by
  obtain ⟨hj, rem, pc, _, rfl⟩ := h
  rw [getElem?_set_call hj, if_neg hij]

theorem StepBy.budget {s t : AllocState} {i : Nat} (hs : s.Inv) (h : s.StepBy i t)
    (hn : ¬ s.Spurious i t) :
    budgetOf t.remaining t.calls[i]? + 1 ≤ budgetOf s.remaining s.calls[i]? := by
  obtain ⟨hi, rem, pc, hst, rfl⟩ := h
  have hfine := hs.calls i _ (List.getElem?_eq_getElem hi)
  rw [getElem?_set_call hi, if_pos rfl, List.getElem?_eq_getElem hi]
  unfold Spurious at hn
  rw [getElem?_set_call hi, if_pos rfl, List.getElem?_eq_getElem hi] at hn
  generalize s.calls[i] = c at *
  obtain ⟨l, pc0⟩ := c
  obtain ⟨rem0, cs⟩ := s
  cases hst with
  | mask_panic => simp only [budgetOf]; omega
  | too_aligned => simp only [budgetOf]; omega
  | load => simp only [budgetOf]; omega
  | exhausted => simp only [budgetOf]; omega
  | closure_panic => simp only [budgetOf]; omega
  | propose => simp only [budgetOf]; omega
  | cas_ok => simp only [budgetOf]; omega
  | cas_fail _ mask prev next =>
    have h1 : rem0.toNat ≤ prev.toNat := hfine.2.2.1
    have h2 : rem0 ≠ prev := by
      rintro rfl
      exact hn ⟨l, mask, next, rfl, rfl⟩
    have h3 : rem0.toNat ≠ prev.toNat := fun e => h2 (BitVec.eq_of_toNat_eq e)
    simp only [budgetOf]; omega

theorem StepsOf.budget {i n : Nat} {s t : AllocState} (hs : s.Inv) (r : StepsOf false i n s t) :
    t.Inv ∧ n + budgetOf t.remaining t.calls[i]? ≤ budgetOf s.remaining s.calls[i]? := by
  induction r with
  | refl => exact ⟨hs, by omega⟩
  | own r h hn ih =>
    have := StepBy.budget (ih hs).1 h (hn rfl)
    exact ⟨trans_inv (ih hs).1 (StepBy.trans h), by have := (ih hs).2; omega⟩
  | @other n s t u j r hij h ih =>
    refine ⟨trans_inv (ih hs).1 (StepBy.trans h), ?_⟩
    rw [StepBy.other h hij]
    have h1 : u.remaining.toNat ≤ t.remaining.toNat := by
      obtain ⟨hj, rem, pc, hst, rfl⟩ := h
      exact (step_fine hst ((ih hs).1.calls j _ (List.getElem?_eq_getElem hj)) (ih hs).1.rem).1
    have := budgetOf_mono h1 t.calls[i]?
    have := (ih hs).2
    omega
  | @call n s t l r ih =>
    refine ⟨trans_inv (ih hs).1 (.call _ l), ?_⟩
    have h1 : budgetOf t.remaining (t.calls ++ [(⟨l, .start⟩ : AllocThread)])[i]? ≤
        budgetOf t.remaining t.calls[i]? := by
      by_cases hi : i < t.calls.length
      · rw [List.getElem?_append_left hi]; omega
      · rw [List.getElem?_eq_none (Nat.le_of_not_lt hi)]
        cases e : (t.calls ++ [(⟨l, .start⟩ : AllocThread)])[i]? with
        | none => simp [budgetOf]
        | some c =>
          rw [List.getElem?_append_right (Nat.le_of_not_lt hi)] at e
          have : c ∈ [(⟨l, .start⟩ : AllocThread)] := List.mem_of_getElem? e
          rw [List.mem_singleton.1 this]; simp [budgetOf]
    have := (ih hs).2
    simp only
    omega

/-- C67: whatever the other calls do and however many there are, a call that suffers no spurious
failure of the compare-exchange takes at most 262147 steps in its life. -/
theorem C67_wait_free {s t : AllocState} (h : AllocReachable s) {i n : Nat}
    (r : StepsOf false i n s t) : n ≤ 262147 := by
  have hs := reachable_inv h
  have h1 := (r.budget hs).2
  have h2 : budgetOf s.remaining s.calls[i]? ≤ 3 + 2 * 131072 := by
    have h3 := hs.rem
    cases e : s.calls[i]? with
    | none => simp only [budgetOf]; omega
    | some c =>
      have h4 := hs.calls i c e
      obtain ⟨l, pc⟩ := c
      cases pc with
      | start => simp only [budgetOf]; omega
      | loaded mask prev => have := h4.2.2.2; simp only [budgetOf]; omega
      | cas mask prev next => have := h4.2.2.2.1; simp only [budgetOf]; omega
      | done => simp [budgetOf]
      | panicked => simp [budgetOf]
  omega

/-- C67: without that proviso there is no bound: a call can be kept retrying for ever even if
nobody competes with it. -/
theorem C67_refuted_spurious (n : Nat) :
    ∃ s t, AllocReachable s ∧ StepsOf true 0 n s t ∧ ∀ c ∈ t.calls, ¬ c.finished := by
  have hm : align_mask (1 : Usize) = .ok (~~~((1 : Usize) - 1)) :=
    align_mask_ok (l := ⟨8, 1⟩) ⟨0, one_toNat⟩
  have hc : alloc_closure ⟨8, 1⟩ (~~~((1 : Usize) - 1)) ARENA_SIZE =
      .ok (some ((ARENA_SIZE - 8) &&& ~~~((1 : Usize) - 1))) := by
    rw [alloc_closure_ok, if_neg]
    rw [arena_toNat, show (8 : Usize).toNat = 8 from usize_toNat (by decide)]
    decide
  let a : AllocState := ⟨ARENA_SIZE, [⟨⟨8, 1⟩, .loaded (~~~((1 : Usize) - 1)) ARENA_SIZE⟩]⟩
  let b : AllocState := ⟨ARENA_SIZE, [⟨⟨8, 1⟩, .cas (~~~((1 : Usize) - 1)) ARENA_SIZE
    ((ARENA_SIZE - 8) &&& ~~~((1 : Usize) - 1))⟩]⟩
  have ha : AllocReachable a := by
    have h1 : AllocReachable ⟨ARENA_SIZE, [⟨⟨8, 1⟩, .start⟩]⟩ := .trans .init (.call _ ⟨8, 1⟩)
    exact .trans h1 (.step _ 0 (by simp) _ _ (.load _ _ hm (by
      rw [max_align_toNat, show BitVec.toNat (Layout.align _) = 1 from one_toNat]; decide)))
  have hab : a.StepBy 0 b := ⟨Nat.zero_lt_one, _, _, .propose _ _ _ _ hc, rfl⟩
  have hba : b.StepBy 0 a := ⟨Nat.zero_lt_one, _, _, .cas_fail _ _ _ _, rfl⟩
  have key : ∀ n, StepsOf true 0 n a a ∨ StepsOf true 0 n a b := by
    intro n
    induction n with
    | zero => exact .inl (.refl _)
    | succ n ih =>
      rcases ih with h | h
      · exact .inr (.own h hab (by simp))
      · exact .inl (.own h hba (by simp))
  rcases key n with h | h
  · exact ⟨a, a, ha, h, by simp [a, AllocThread.finished]⟩
  · exact ⟨a, b, ha, h, by simp [b, AllocThread.finished]⟩

/-! ### All calls together -/

/-- Upper bound for the steps a call still has to take if the counter stays at `rem`. -/
def stepsLeft (rem : Usize) (c : AllocThread) : Nat :=
  match c.pc with
  | .start => 3
  | .loaded _ prev => if prev = rem then 2 else 4
  | .cas _ prev _ => if prev = rem then 1 else 3
  | .done _ => 0
  | .panicked => 0

/-- Summed over a list of calls. -/
def sumLeft (rem : Usize) (l : List AllocThread) : Nat := (l.map (stepsLeft rem)).sum

/-- The unfinished calls of a list. -/
def openCalls (l : List AllocThread) : Nat := (l.filter fun c => !c.finished).length

theorem sumLeft_change (rem rem' : Usize) (l : List AllocThread) :
    sumLeft rem' l ≤ sumLeft rem l + 2 * openCalls l := by
  induction l with
  | nil => simp [sumLeft, openCalls]
  | cons c l ih =>
    have h : stepsLeft rem' c ≤ stepsLeft rem c + 2 * (if c.finished then 0 else 1) := by
      obtain ⟨y, pc⟩ := c
      cases pc <;> simp only [stepsLeft, AllocThread.finished] <;> (repeat' split) <;> simp_all
    simp only [sumLeft, openCalls, List.map_cons, List.sum_cons, List.filter_cons] at *
    cases e : c.finished <;> simp only [e] at * <;> simp at * <;> omega

theorem sumLeft_le (rem : Usize) (l : List AllocThread) : sumLeft rem l ≤ 4 * openCalls l := by
  induction l with
  | nil => simp [sumLeft, openCalls]
  | cons c l ih =>
    have h : stepsLeft rem c ≤ 4 * (if c.finished then 0 else 1) := by
      obtain ⟨y, pc⟩ := c
      cases pc <;> simp only [stepsLeft, AllocThread.finished] <;> (repeat' split) <;> simp_all
    simp only [sumLeft, openCalls, List.map_cons, List.sum_cons, List.filter_cons] at *
    cases e : c.finished <;> simp only [e] at * <;> simp at * <;> omega

theorem set_split {α : Type} {l : List α} {i : Nat} (h : i < l.length) :
    ∃ l1 l2, l = l1 ++ l[i] :: l2 ∧ ∀ y, l.set i y = l1 ++ y :: l2 := by
  induction l generalizing i with
  | nil => simp at h
  | cons a l ih =>
    cases i with
    | zero => exact ⟨[], l, rfl, fun y => rfl⟩
    | succ i =>
      obtain ⟨l1, l2, h1, h2⟩ := ih (i := i) (by simpa using h)
      refine ⟨a :: l1, l2, ?_, fun y => ?_⟩
      · simp only [List.getElem_cons_succ, List.cons_append]; rw [← h1]
      · simp [h2 y]

theorem openCalls_split (l1 l2 : List AllocThread) (c : AllocThread) :
    openCalls (l1 ++ c :: l2) = openCalls l1 + openCalls l2 + (if c.finished then 0 else 1) := by
  simp only [openCalls, List.filter_append, List.filter_cons, List.length_append]
  cases c.finished <;> simp; omega

theorem sumLeft_split (rem : Usize) (l1 l2 : List AllocThread) (c : AllocThread) :
    sumLeft rem (l1 ++ c :: l2) = sumLeft rem l1 + sumLeft rem l2 + stepsLeft rem c := by
  simp only [sumLeft, List.map_append, List.map_cons, List.sum_append, List.sum_cons]; omega

/-- The whole potential. -/
def potential (s : AllocState) : Nat :=
  sumLeft s.remaining s.calls + openCalls s.calls * openCalls s.calls

theorem StepBy.potential {s t : AllocState} {i : Nat} (h : s.StepBy i t)
    (hn : ¬ s.Spurious i t) : ShogiCore.potential t + 1 ≤ ShogiCore.potential s := by
  obtain ⟨hi, rem, pc, hst, rfl⟩ := h
  unfold Spurious at hn
  rw [getElem?_set_call hi, if_pos rfl, List.getElem?_eq_getElem hi] at hn
  obtain ⟨l1, l2, h1, h2⟩ := set_split hi
  have h3 := (congrArg (sumLeft s.remaining) h1).trans (sumLeft_split _ _ _ _)
  have h4 := (congrArg openCalls h1).trans (openCalls_split _ _ _)
  unfold ShogiCore.potential
  simp only [h2, h3, h4]
  clear h1 h2 h3 h4
  generalize s.calls[i] = c at *
  obtain ⟨l, pc0⟩ := c
  obtain ⟨rem0, cs⟩ := s
  simp only [openCalls_split, sumLeft_split]
  have e1 := sumLeft_change rem0 rem l1
  have e2 := sumLeft_change rem0 rem l2
  generalize hp : openCalls l1 + openCalls l2 = p
  have hsq : (p + 1) * (p + 1) = p * p + 2 * p + 1 := by
    simp only [Nat.add_mul, Nat.mul_add]; omega
  cases hst with
  | cas_ok mask _ next =>
    simp only [stepsLeft, AllocThread.finished, if_true] at *
    simp only [Bool.false_eq_true, if_false, Nat.add_zero] at *
    omega
  | cas_fail _ mask prev next =>
    have h2 : prev ≠ rem0 := by
      rintro rfl
      exact hn ⟨l, mask, next, rfl, rfl⟩
    simp only [stepsLeft, AllocThread.finished, if_true, h2, Bool.false_eq_true, if_false] at *
    omega
  | propose _ mask prev next =>
    simp only [stepsLeft, AllocThread.finished, Bool.false_eq_true, if_false] at *
    split <;> omega
  | exhausted _ mask prev =>
    simp only [stepsLeft, AllocThread.finished, if_true, Bool.false_eq_true, if_false, Nat.add_zero] at *
    split <;> omega
  | closure_panic _ mask prev =>
    simp only [stepsLeft, AllocThread.finished, if_true, Bool.false_eq_true, if_false, Nat.add_zero] at *
    split <;> omega
  | load _ mask =>
    simp only [stepsLeft, AllocThread.finished, if_true, Bool.false_eq_true, if_false] at *
    omega
  | too_aligned _ mask =>
    simp only [stepsLeft, AllocThread.finished, if_true, Bool.false_eq_true, if_false, Nat.add_zero] at *
    omega
  | mask_panic _ =>
    simp only [stepsLeft, AllocThread.finished, if_true, Bool.false_eq_true, if_false, Nat.add_zero] at *
    omega

theorem ClosedRun.potential {n : Nat} {s t : AllocState} (r : ClosedRun n s t) :
    n + ShogiCore.potential t ≤ ShogiCore.potential s := by
  induction r with
  | refl => omega
  | step r h hn ih => have := StepBy.potential h hn; omega

/-- A call that has not finished can take a step that is not a spurious failure. -/
theorem can_step (t : AllocState) (i : Nat) (hi : i < t.calls.length)
    (hf : t.calls[i].finished = false) : ∃ u, t.StepBy i u ∧ ¬ t.Spurious i u := by
  have key : ∃ rem pc, AllocStep t.calls[i].layout (t.remaining, t.calls[i].pc) (rem, pc) ∧
      ((∃ mask next, t.calls[i].pc = .cas mask t.remaining next) → ∃ r, pc = .done r) := by
    generalize t.calls[i] = c at *
    obtain ⟨l, pc⟩ := c
    cases pc with
    | start =>
      cases e : align_mask l.align with
      | ok mask =>
        by_cases h : MAX_SUPPORTED_ALIGN.toNat < l.align.toNat
        · exact ⟨_, _, .too_aligned _ _ e h, by rintro ⟨_, _, h⟩; cases h⟩
        · exact ⟨_, _, .load _ _ e h, by rintro ⟨_, _, h⟩; cases h⟩
      | panic => exact ⟨_, _, .mask_panic _ e, by rintro ⟨_, _, h⟩; cases h⟩
      | ub =>
        exfalso
        unfold align_mask csub at e
        split at e <;> cases e
    | loaded mask prev =>
      by_cases h : prev.toNat < l.size.toNat
      · exact ⟨_, _, .exhausted _ _ _ (by rw [alloc_closure_ok, if_pos h]),
          by rintro ⟨_, _, h⟩; cases h⟩
      · exact ⟨_, _, .propose _ _ _ _ (by rw [alloc_closure_ok, if_neg h]),
          by rintro ⟨_, _, h⟩; cases h⟩
    | cas mask prev next =>
      by_cases h : prev = t.remaining
      · subst h
        exact ⟨_, _, .cas_ok _ _ _, fun _ => ⟨_, rfl⟩⟩
      · refine ⟨_, _, .cas_fail _ _ _ _, ?_⟩
        rintro ⟨_, _, e⟩
        injection e with e1 e2 e3
        exact absurd e2 h
    | done => cases hf
    | panicked => cases hf
  obtain ⟨rem, pc, hst, hd⟩ := key
  refine ⟨_, ⟨hi, rem, pc, hst, rfl⟩, ?_⟩
  rintro ⟨l, mask, next, e1, e2⟩
  rw [List.getElem?_eq_getElem hi] at e1
  rw [getElem?_set_call hi, if_pos rfl] at e2
  obtain ⟨r, hr⟩ := hd ⟨mask, next, by rw [Option.some.inj e1]⟩
  have := (AllocThread.mk.inj (Option.some.inj e2)).2
  rw [hr] at this; cases this

/-- C67: the calls that have begun finish under every schedule: if no compare-exchange fails
spuriously, `p` unfinished calls take at most `p * p + 4 * p` steps together, and they can only
stop when all have finished. -/
theorem C67_all_finish {n : Nat} {s t : AllocState} (r : ClosedRun n s t) :
    n ≤ s.pending * s.pending + 4 * s.pending ∧
    ((¬ ∃ i u, t.StepBy i u ∧ ¬ t.Spurious i u) ↔ ∀ c ∈ t.calls, c.finished = true) := by
  constructor
  · have h1 := r.potential
    have h2 := sumLeft_le s.remaining s.calls
    have h3 : ShogiCore.potential s =
      sumLeft s.remaining s.calls + s.pending * s.pending := rfl
    have h4 : openCalls s.calls = s.pending := rfl
    omega
  · constructor
    · intro h c hc
      obtain ⟨i, hi, rfl⟩ := List.getElem_of_mem hc
      cases e : t.calls[i].finished with
      | true => rfl
      | false =>
        obtain ⟨u, h1, h2⟩ := can_step t i hi e
        exact absurd ⟨i, u, h1, h2⟩ h
    · rintro h ⟨i, u, ⟨hi, rem, pc, hst, _⟩, _⟩
      have := h _ (List.getElem_mem hi)
      generalize t.calls[i] = c at *
      obtain ⟨l, pc0⟩ := c
      obtain ⟨rem0, cs⟩ := t
      cases hst <;> cases this

/-- C67: a call is made to retry only by the success of another one: if the counter differs at two
moments, some call returned a block in between. -/
theorem C67_contention {s t : AllocState} (hs : AllocReachable s) (r : AllocRun s t)
    (hne : t.remaining ≠ s.remaining) :
    ∃ j l a, t.Returned j l a ∧ ¬ s.Returned j l a ∧ a < s.remaining.toNat := by
  have key : t.Inv ∧ t.remaining.toNat ≤ s.remaining.toNat ∧
      (∀ i l a, s.Returned i l a → t.Returned i l a) ∧ (t.remaining ≠ s.remaining →
        ∃ j l a, t.Returned j l a ∧ ¬ s.Returned j l a ∧ a < s.remaining.toNat) := by
    clear hne
    induction r with
    | refl => exact ⟨reachable_inv hs, Nat.le_refl _, fun _ _ _ h => h, fun h => absurd rfl h⟩
    | @trans t u r ht ih =>
      obtain ⟨h1, h2, h3, h4⟩ := ih
      have h5 := (trans_keeps ht).1
      refine ⟨trans_inv h1 ht, ?_⟩
      cases ht with
      | call l =>
        refine ⟨h2, fun i l a h => h5 _ _ _ (h3 _ _ _ h), fun h => ?_⟩
        obtain ⟨j, l', a, g1, g2, g3⟩ := h4 h
        exact ⟨j, l', a, h5 _ _ _ g1, g2, g3⟩
      | step i hi rem pc hst =>
        obtain ⟨f1, _, _, f4⟩ := step_fine hst (h1.calls i _ (List.getElem?_eq_getElem hi)) h1.rem
        refine ⟨Nat.le_trans f1 h2, fun i l a h => h5 _ _ _ (h3 _ _ _ h), fun h => ?_⟩
        by_cases e : rem = t.remaining
        · obtain ⟨j, l', a, g1, g2, g3⟩ := h4 (by rw [← e]; exact h)
          exact ⟨j, l', a, h5 _ _ _ g1, g2, g3⟩
        · have hpc := f4 e
          subst hpc
          refine ⟨i, t.calls[i].layout, rem.toNat, ⟨rem, ?_, rfl⟩, fun hret => ?_, ?_⟩
          · rw [getElem?_set_call hi, if_pos rfl]
          · obtain ⟨o, ho, _⟩ := h3 _ _ _ hret
            rw [List.getElem?_eq_getElem hi] at ho
            have hp : t.calls[i].pc = .done (some o) :=
              congrArg AllocThread.pc (Option.some.inj ho)
            rw [hp] at hst
            generalize t.remaining = x at hst
            cases hst
          · have : rem.toNat ≠ t.remaining.toNat := fun h => e (BitVec.eq_of_toNat_eq h)
            omega
  exact key.2.2.2 hne

end

section
attribute [local instance] demoBuild

/-- Non-vacuity: two calls compete, the first one loses once, and both finish after eight
steps, five of them its own. -/
example : ∃ s t, AllocReachable s ∧ s.pending = 2 ∧ ClosedRun 8 s t ∧
    (∀ c ∈ t.calls, c.finished = true) ∧ StepsOf false 0 5 s t ∧ t.remaining ≠ s.remaining := by
  have hm : align_mask (1 : Usize) = .ok (~~~((1 : Usize) - 1)) :=
    align_mask_ok (l := ⟨8, 1⟩) ⟨0, rfl⟩
  have c1 : alloc_closure ⟨8, 1⟩ (~~~((1 : Usize) - 1)) ARENA_SIZE = .ok (some 131064) := by
    rw [alloc_closure_ok]; decide
  have c2 : alloc_closure ⟨8, 1⟩ (~~~((1 : Usize) - 1)) 131064 = .ok (some 131056) := by
    rw [alloc_closure_ok]; decide
  let st (n : Usize) (a b : AllocPc) : AllocState := ⟨n, [⟨⟨8, 1⟩, a⟩, ⟨⟨8, 1⟩, b⟩]⟩
  let m : Usize := ~~~((1 : Usize) - 1)
  let z : Usize := ARENA_SIZE
  let s0 := st z .start .start
  let s1 := st z (.loaded m z) .start
  let s2 := st z (.cas m z 131064) .start
  let s3 := st z (.cas m z 131064) (.loaded m z)
  let s4 := st z (.cas m z 131064) (.cas m z 131064)
  let s5 := st 131064 (.cas m z 131064) (.done (some 131064))
  let s6 := st 131064 (.loaded m 131064) (.done (some 131064))
  let s7 := st 131064 (.cas m 131064 131056) (.done (some 131064))
  let s8 := st 131056 (.done (some 131056)) (.done (some 131064))
  have r : AllocReachable s0 := .trans (.trans .init (.call _ ⟨8, 1⟩)) (.call _ ⟨8, 1⟩)
  have t1 : s0.StepBy 0 s1 := ⟨by decide, _, _, .load _ _ hm (by decide), rfl⟩
  have t2 : s1.StepBy 0 s2 := ⟨by decide, _, _, .propose _ _ _ _ c1, rfl⟩
  have t3 : s2.StepBy 1 s3 := ⟨by decide, _, _, .load _ _ hm (by decide), rfl⟩
  have t4 : s3.StepBy 1 s4 := ⟨by decide, _, _, .propose _ _ _ _ c1, rfl⟩
  have t5 : s4.StepBy 1 s5 := ⟨by decide, _, _, .cas_ok _ _ _, rfl⟩
  have t6 : s5.StepBy 0 s6 := ⟨by decide, _, _, .cas_fail _ _ _ _, rfl⟩
  have t7 : s6.StepBy 0 s7 := ⟨by decide, _, _, .propose _ _ _ _ c2, rfl⟩
  have t8 : s7.StepBy 0 s8 := ⟨by decide, _, _, .cas_ok _ _ _, rfl⟩
  have n1 : ¬ s0.Spurious 0 s1 := by rintro ⟨_, _, _, h, _⟩; cases h
  have n2 : ¬ s1.Spurious 0 s2 := by rintro ⟨_, _, _, h, _⟩; cases h
  have n3 : ¬ s2.Spurious 1 s3 := by rintro ⟨_, _, _, h, _⟩; cases h
  have n4 : ¬ s3.Spurious 1 s4 := by rintro ⟨_, _, _, h, _⟩; cases h
  have n5 : ¬ s4.Spurious 1 s5 := by rintro ⟨_, _, _, _, h⟩; cases h
  have n6 : ¬ s5.Spurious 0 s6 := by
    rintro ⟨_, _, _, h, _⟩
    have h := Option.some.inj h
    injection h with _ h
    injection h with _ h
    exact absurd h (by decide)
  have n7 : ¬ s6.Spurious 0 s7 := by rintro ⟨_, _, _, h, _⟩; cases h
  have n8 : ¬ s7.Spurious 0 s8 := by rintro ⟨_, _, _, _, h⟩; cases h
  refine ⟨s0, s8, r, by decide, ?_, by decide, ?_, by decide⟩
  · exact (((((((ClosedRun.refl s0).step t1 n1).step t2 n2).step t3 n3).step t4 n4).step t5 n5).step
      t6 n6).step t7 n7 |>.step t8 n8
  · have o3 := (((StepsOf.refl s0 (weak := false) (i := 0)).own t1 fun _ => n1).own t2
      fun _ => n2).other (by decide) t3
    exact ((((o3.other (by decide) t4).other (by decide) t5).own t6 fun _ => n6).own t7
      fun _ => n7).own t8 fun _ => n8

end

end ShogiCore
