import Verif.Spec.Iter
import Verif.Props.Bitboard
import Verif.Props.Order

/- C79: bitboards as iterators. -/

set_option linter.unusedSectionVars false

namespace ShogiCore

variable [P : Profile]

/-! ### Ascending lists -/

private theorem sorted_unique {l l' : List Square} (h : l.Pairwise fun s t => s.val.toNat < t.val.toNat)
    (h' : l'.Pairwise fun s t => s.val.toNat < t.val.toNat) (e : ∀ s, s ∈ l ↔ s ∈ l') : l = l' := by
  induction l generalizing l' with
  | nil =>
    cases l' with
    | nil => rfl
    | cons a t => exact absurd ((e a).2 (by simp)) (by simp)
  | cons a t ih =>
    cases l' with
    | nil => exact absurd ((e a).1 (by simp)) (by simp)
    | cons a' t' =>
      rw [List.pairwise_cons] at h h'
      have ea : a = a' := by
        rcases List.mem_cons.1 ((e a).1 (by simp)) with x | x
        · exact x
        rcases List.mem_cons.1 ((e a').2 (by simp)) with y | y
        · exact y.symm
        have := h'.1 a x
        have := h.1 a' y
        omega
      subst ea
      rw [ih h.2 h'.2]
      intro s
      have := e s
      rw [List.mem_cons, List.mem_cons] at this
      refine ⟨fun hs => ?_, fun hs => ?_⟩
      · rcases this.1 (.inr hs) with rfl | x
        · exact absurd (h.1 s hs) (by omega)
        · exact x
      · rcases this.2 (.inr hs) with rfl | x
        · exact absurd (h'.1 s hs) (by omega)
        · exact x

private def asc (b : Bitboard) : List Square := b.bits.map Square.ofIdx

private theorem asc_ascending {b : Bitboard} (hb : b.Canonical) : b.Ascending (asc b) := by
  refine ⟨hb, fun s => ?_, ?_⟩
  · rw [asc, List.mem_map]
    constructor
    · rintro ⟨i, hi, rfl⟩
      obtain ⟨h1, h2⟩ := Bitboard.mem_bits.1 hi
      exact ⟨Square.ofIdx_valid h1, (Bitboard.mem_iff _ (Square.ofIdx_valid h1)).2
        (by rw [Square.idx0_ofIdx h1]; exact h2)⟩
    · rintro ⟨h1, h2⟩
      exact ⟨s.idx0, Bitboard.mem_bits.2 ⟨Square.idx0_lt h1, (Bitboard.mem_iff _ h1).1 h2⟩,
        Square.ofIdx_idx0 h1⟩
  · rw [asc, List.pairwise_map]
    refine b.bits_pairwise.imp_of_mem fun {i j} hi hj h => ?_
    have hi := (Bitboard.mem_bits.1 hi).1
    have hj := (Bitboard.mem_bits.1 hj).1
    have e1 := Square.idx0_ofIdx hi
    have e2 := Square.idx0_ofIdx hj
    have v1 : 1 ≤ (Square.ofIdx i).val.toNat := (Square.ofIdx_valid hi).1
    have v2 : 1 ≤ (Square.ofIdx j).val.toNat := (Square.ofIdx_valid hj).1
    simp only [Square.idx0] at e1 e2
    omega

private theorem ascending_eq {b : Bitboard} {l : List Square} (h : b.Ascending l) : l = asc b :=
  sorted_unique h.order (asc_ascending h.canonical).order fun s =>
    (h.mem s).trans ((asc_ascending h.canonical).mem s).symm

private theorem asc_length (b : Bitboard) : (asc b).length ≤ 81 := by
  rw [asc, List.length_map]; exact b.bits_length_le

private theorem next_asc {b : Bitboard} (hb : b.Canonical) :
    (asc b = [] ∧ b.next = .ok (b, none)) ∨
    ∃ s b', b'.Canonical ∧ asc b = s :: asc b' ∧ b.next = .ok (b', some s) := by
  rcases Bitboard.pop_ok hb with ⟨h1, h2⟩ | ⟨i, b', _, _, _, h2, h3, _, h5⟩
  · exact .inl ⟨by rw [asc, h1]; rfl, h2⟩
  · exact .inr ⟨_, b', h3, by rw [asc, h5]; rfl, h2⟩

private theorem drive_asc {S R : Type} (step : S → Option Square → Res (S ⊕ R)) (fuel : Nat) (s : S)
    {b : Bitboard} (hb : b.Canonical) :
    SameRun (drive Bitboard.next step fuel s b) (drive listNext step fuel s (asc b)) := by
  induction fuel generalizing s b with
  | zero => exact .unfinished
  | succ n ih =>
    rcases next_asc hb with ⟨h1, h2⟩ | ⟨x, b', h1, h2, h3⟩
    · rw [drive, drive, h2, h1, listNext, Res.bind_ok, Res.bind_ok]
      dsimp only
      cases step s none with
      | panic => exact .panic
      | ub => exact .ub
      | ok v =>
        cases v with
        | inr r => exact .finished r b [] (h1 ▸ asc_ascending hb)
        | inl s' =>
          have := ih s' hb
          rw [h1] at this
          exact this
    · rw [drive, drive, h3, h2, listNext, Res.bind_ok, Res.bind_ok]
      dsimp only
      cases step s (some x) with
      | panic => exact .panic
      | ub => exact .ub
      | ok v =>
        cases v with
        | inr r => exact .finished r b' _ (asc_ascending h1)
        | inl s' => exact ih s' h1

/-! ### C79 -/

/-- C79: whatever calls `next` on a bitboard, and does whatever else with the squares, finds what
it would find going through the ascending list of the members. -/
theorem C79_consumer {S R : Type} (step : S → Option Square → Res (S ⊕ R)) (fuel : Nat) (s : S)
    (b : Bitboard) (l : List Square) (h : b.Ascending l) :
    SameRun (drive Bitboard.next step fuel s b) (drive listNext step fuel s l) := by
  rw [ascending_eq h]; exact drive_asc step fuel s h.canonical

/-- C79: there is exactly one such list for every bitboard, and equal bitboards are those with
equal lists. -/
theorem C79_list (b : Bitboard) (hb : b.Canonical) :
    (∃ l, b.Ascending l ∧ ∀ l', b.Ascending l' → l' = l) ∧
    ∀ (b' : Bitboard) (l : List Square), b.Ascending l → b'.Ascending l → b' = b := by
  refine ⟨⟨asc b, asc_ascending hb, fun l' h => ascending_eq h⟩, fun b' l h h' => ?_⟩
  have e : asc b = asc b' := (ascending_eq h).symm.trans (ascending_eq h')
  refine Bitboard.ext_mem h'.canonical h.canonical fun s hs => ?_
  have a := h.mem s
  have a' := h'.mem s
  exact ⟨fun x => (a.1 (a'.2 ⟨hs, x⟩)).2, fun x => (a'.1 (a.2 ⟨hs, x⟩)).2⟩

/-- What is found on the list is found on the bitboard. -/
private theorem transfer {S R : Type} {step : S → Option Square → Res (S ⊕ R)} {fuel : Nat} {s : S}
    {b : Bitboard} {l : List Square} (h : b.Ascending l) {r : R} {l' : List Square}
    (e : drive listNext step fuel s l = .ok (some (r, l'))) :
    ∃ b', drive Bitboard.next step fuel s b = .ok (some (r, b')) ∧ b'.Ascending l' := by
  have := C79_consumer step fuel s b l h
  rw [e] at this
  generalize hx : drive Bitboard.next step fuel s b = x at this
  cases this with
  | finished r b' l' h => exact ⟨b', rfl, h⟩

private theorem list_fold {β : Type} (f : β → Square → β) (l : List Square) (b : β) (fuel : Nat)
    (h : l.length < fuel) :
    drive listNext (Iter.fold f) fuel b l = .ok (some (l.foldl f b, [])) := by
  induction l generalizing b fuel with
  | nil =>
    cases fuel with
    | zero => cases h
    | succ n => rfl
  | cons a l ih =>
    cases fuel with
    | zero => cases h
    | succ n => exact ih (f b a) n (by simpa using h)

private theorem length_le {b : Bitboard} {l : List Square} (h : b.Ascending l) : l.length ≤ 81 := by
  rw [ascending_eq h]; exact asc_length b

/-- C79: `fold`, `for_each`: 82 calls of `next` suffice, nothing is left over. -/
theorem C79_fold {β : Type} (f : β → Square → β) (b : Bitboard) (l : List Square) (h : b.Ascending l)
    (fuel : Nat) (hf : 81 < fuel) (x : β) :
    ∃ b', drive Bitboard.next (Iter.fold f) fuel x b = .ok (some (l.foldl f x, b')) ∧
      b'.Ascending [] :=
  transfer h (list_fold f l x fuel (by have := length_le h; omega))

private theorem foldl_snoc (l k : List Square) : l.foldl (fun l a => l ++ [a]) k = k ++ l := by
  induction l generalizing k with
  | nil => simp
  | cons a l ih => rw [List.foldl_cons, ih]; simp

private theorem foldl_count (l : List Square) (n : Nat) : l.foldl (fun n _ => n + 1) n = n + l.length := by
  induction l generalizing n with
  | nil => rfl
  | cons a l ih => rw [List.foldl_cons, ih, List.length_cons]; omega

/-- C79: `collect` gives the list, `Iterator::count` the number that the bitboard's own `count`
gives. -/
theorem C79_collect (b : Bitboard) (l : List Square) (h : b.Ascending l) (fuel : Nat) (hf : 81 < fuel) :
    (∃ b', drive Bitboard.next Iter.collect fuel [] b = .ok (some (l, b')) ∧ b'.Ascending []) ∧
    ∃ b' n, drive Bitboard.next Iter.count fuel 0 b = .ok (some (BitVec.toNat n, b')) ∧
      b.count = .ok n := by
  refine ⟨?_, ?_⟩
  · have := C79_fold (fun l a => l ++ [a]) b l h fuel hf []
    rw [foldl_snoc] at this
    exact this
  · obtain ⟨b', e, _⟩ := C79_fold (fun n _ => n + 1) b l h fuel hf 0
    rw [foldl_count, Nat.zero_add] at e
    refine ⟨b', _, ?_, Bitboard.count_ok h.canonical⟩
    rw [BitVec.toNat_ofNat, Nat.mod_eq_of_lt (by have := b.bits_length_le; omega)]
    have : l.length = b.bits.length := by rw [ascending_eq h, asc, List.length_map]
    rw [← this]; exact e

/-- C79: `nth(n)` is the `n`-th member from below and leaves those above it. -/
theorem C79_nth (b : Bitboard) (l : List Square) (h : b.Ascending l) (fuel : Nat) (hf : 81 < fuel)
    (n : Nat) :
    ∃ b', drive Bitboard.next Iter.nth fuel n b = .ok (some (l[n]?, b')) ∧
      b'.Ascending (l.drop (n + 1)) := by
  refine transfer h ?_
  have hl : l.length < fuel := by have := length_le h; omega
  clear hf h
  induction l generalizing n fuel with
  | nil =>
    cases fuel with
    | zero => cases hl
    | succ k => rfl
  | cons a l ih =>
    cases fuel with
    | zero => cases hl
    | succ k =>
      cases n with
      | zero => rfl
      | succ n => exact ih k n (by simpa using hl)

private theorem foldl_last (l : List Square) (o : Option Square) :
    l.foldl (fun _ a => some a) o = l.getLast?.or o := by
  induction l generalizing o with
  | nil => rfl
  | cons a l ih =>
    rw [List.foldl_cons, ih]
    cases l with
    | nil => rfl
    | cons b l => rw [List.getLast?_cons_cons]; cases h : (b :: l).getLast? with
      | none => simp at h
      | some x => rfl

private theorem cmp_lt {a b : Square} (h : a.val.toNat < b.val.toNat) : a.cmp b = .lt := by
  show compare _ _ = _
  rw [Nat.compare_eq_lt]; exact h

private theorem foldl_min (f : Option Square → Square → Option Square)
    (hf : ∀ a b : Square, a.cmp b = .lt → f (some a) b = some a) (l : List Square) (a : Square)
    (h : (a :: l).Pairwise fun s t => s.val.toNat < t.val.toNat) : l.foldl f (some a) = some a := by
  induction l with
  | nil => rfl
  | cons b l ih =>
    rw [List.pairwise_cons] at h
    rw [List.foldl_cons, hf a b (cmp_lt (h.1 b (by simp)))]
    exact ih (List.pairwise_cons.2 ⟨fun x hx => h.1 x (by simp [hx]), (List.pairwise_cons.1 h.2).2⟩)

private theorem foldl_max (f : Option Square → Square → Option Square)
    (hf : ∀ a b : Square, a.cmp b = .lt → f (some a) b = some b) (l : List Square) (a : Square)
    (h : (a :: l).Pairwise fun s t => s.val.toNat < t.val.toNat) :
    l.foldl f (some a) = (a :: l).getLast? := by
  induction l generalizing a with
  | nil => rfl
  | cons b l ih =>
    rw [List.pairwise_cons] at h
    rw [List.foldl_cons, List.getLast?_cons_cons, ← ih b h.2, hf a b (cmp_lt (h.1 b (by simp)))]

/-- C79: `min` is what `next` would give, `max` and `last` are the greatest member. -/
theorem C79_min_max (b : Bitboard) (l : List Square) (h : b.Ascending l) (fuel : Nat) (hf : 81 < fuel) :
    (∃ b', drive Bitboard.next (Iter.min Square.cmp) fuel none b = .ok (some (l.head?, b'))) ∧
    (∃ b', drive Bitboard.next (Iter.max Square.cmp) fuel none b = .ok (some (l.getLast?, b'))) ∧
    (∃ b', drive Bitboard.next Iter.last fuel none b = .ok (some (l.getLast?, b'))) ∧
    ∀ s, (l.getLast? = some s ↔ s.Valid ∧ b.Mem s ∧
        ∀ t : Square, t.Valid → b.Mem t → t.val.toNat ≤ s.val.toNat) := by
  refine ⟨?_, ?_, ?_, fun s => ?_⟩
  · unfold Iter.min
    obtain ⟨b', e, _⟩ := C79_fold _ b l h fuel hf none
    refine ⟨b', e.trans ?_⟩
    cases l with
    | nil => rfl
    | cons a l =>
      rw [List.foldl_cons, foldl_min _ (fun a b hab => by simp only [hab, reduceCtorEq, if_false]) l a h.order]
      rfl
  · unfold Iter.max
    obtain ⟨b', e, _⟩ := C79_fold _ b l h fuel hf none
    refine ⟨b', e.trans ?_⟩
    cases l with
    | nil => rfl
    | cons a l =>
      rw [List.foldl_cons, foldl_max _ (fun a b hab => by simp only [hab, reduceCtorEq, if_false]) l a h.order]
  · obtain ⟨b', e, _⟩ := C79_fold (fun _ a => some a) b l h fuel hf none
    refine ⟨b', e.trans ?_⟩
    rw [foldl_last, Option.or_none]
  · have key : ∀ {l : List Square}, (l.Pairwise fun s t => s.val.toNat < t.val.toNat) → ∀ s,
        l.getLast? = some s → ∀ t ∈ l, t.val.toNat ≤ s.val.toNat := by
      intro l h s hs t ht
      obtain ⟨k, rfl⟩ := List.getLast?_eq_some_iff.1 hs
      rcases List.mem_append.1 ht with x | x
      · have := (List.pairwise_append.1 h).2.2 t x s (by simp); omega
      · rw [List.mem_singleton.1 x]; exact Nat.le_refl _
    constructor
    · intro hs
      have := (h.mem s).1 (List.mem_of_getLast? hs)
      exact ⟨this.1, this.2, fun t ht hm => key h.order s hs t ((h.mem t).2 ⟨ht, hm⟩)⟩
    · rintro ⟨h1, h2, h3⟩
      have hm := (h.mem s).2 ⟨h1, h2⟩
      cases e : l.getLast? with
      | none => rw [List.getLast?_eq_none_iff.1 e] at hm; cases hm
      | some t =>
        have h4 := key h.order t e s hm
        have h5 := (h.mem t).1 (List.mem_of_getLast? e)
        have := h3 t h5.1 h5.2
        congr 1
        cases s; cases t
        congr 1
        exact BitVec.eq_of_toNat_eq (by simp only at *; omega)

/-- C79: `find`, `any`, `all`, `position`: the least member with the property, its place, and what
lies above it is left over. -/
theorem C79_find (p : Square → Bool) (b : Bitboard) (l : List Square) (h : b.Ascending l) (fuel : Nat)
    (hf : 81 < fuel) :
    (∃ b', drive Bitboard.next (Iter.find p) fuel () b = .ok (some (l.find? p, b')) ∧
      b'.Ascending ((l.dropWhile fun s => !p s).drop 1)) ∧
    ∃ b', drive Bitboard.next (Iter.position p) fuel 0 b = .ok (some (l.findIdx? p, b')) ∧
      b'.Ascending ((l.dropWhile fun s => !p s).drop 1) := by
  have hl : l.length < fuel := by have := length_le h; omega
  refine ⟨transfer h ?_, transfer h ?_⟩
  · clear hf h
    induction l generalizing fuel with
    | nil =>
      cases fuel with
      | zero => cases hl
      | succ k => rfl
    | cons a l ih =>
      cases fuel with
      | zero => cases hl
      | succ k =>
        rw [drive, listNext, Res.bind_ok]
        dsimp only [Iter.find]
        rw [Res.bind_ok]
        cases hp : p a with
        | true => simp [hp]
        | false =>
          simp only [Bool.false_eq_true, if_false]
          rw [ih k (by simpa using hl)]
          simp [hp]
  · clear hf h
    have gen : ∀ n, drive listNext (Iter.position p) fuel n l =
        .ok (some ((l.findIdx? p).map (· + n), (l.dropWhile fun s => !p s).drop 1)) := by
      induction l generalizing fuel with
      | nil =>
        cases fuel with
        | zero => cases hl
        | succ k => intro n; rfl
      | cons a l ih =>
        cases fuel with
        | zero => cases hl
        | succ k =>
          intro n
          rw [drive, listNext, Res.bind_ok]
          dsimp only [Iter.position]
          rw [Res.bind_ok]
          cases hp : p a with
          | true => simp [hp, List.findIdx?_cons]
          | false =>
            simp only [Bool.false_eq_true, if_false]
            rw [ih k (by simpa using hl)]
            simp [hp, List.findIdx?_cons, Option.map_map, Function.comp_def, Nat.add_comm,
              Nat.add_left_comm]
    have := gen 0
    simpa using this

private theorem list_cmp (l l' : List Square) (fuel : Nat) (hl : l.length < fuel) :
    ∃ k, drive listNext (Iter.cmp listNext Square.cmp) fuel l' l =
      .ok (some (cmpList Square.cmp l l', k)) := by
  induction l generalizing l' fuel with
  | nil =>
    cases fuel with
    | zero => cases hl
    | succ n => cases l' <;> exact ⟨_, rfl⟩
  | cons a l ih =>
    cases fuel with
    | zero => cases hl
    | succ n =>
      cases l' with
      | nil => exact ⟨_, rfl⟩
      | cons b l' =>
        rw [drive, listNext, Res.bind_ok]
        dsimp only [Iter.cmp, listNext]
        simp only [Res.bind_ok, cmpList]
        cases hc : a.cmp b with
        | eq =>
          simp only [if_true, Res.pure_eq, Res.bind_ok]
          exact ih l' n (by simpa using hl)
        | lt => exact ⟨_, rfl⟩
        | gt => exact ⟨_, rfl⟩

/-- Comparing with a bitboard is comparing with its list. -/
private theorem cmp_right (l : List Square) (b : Bitboard) (hb : b.Canonical) (fuel : Nat) :
    drive listNext (Iter.cmp Bitboard.next Square.cmp) fuel b l =
      drive listNext (Iter.cmp listNext Square.cmp) fuel (asc b) l := by
  induction fuel generalizing l b with
  | zero => rfl
  | succ n ih =>
    cases l with
    | nil =>
      rw [drive, drive, listNext, Res.bind_ok, Res.bind_ok]
      dsimp only [Iter.cmp]
      rcases next_asc hb with ⟨h1, h2⟩ | ⟨x, b', h1, h2, h3⟩
      · rw [h2, h1]; rfl
      · rw [h3, h2]; rfl
    | cons a l =>
      rw [drive, drive, listNext, Res.bind_ok, Res.bind_ok]
      dsimp only [Iter.cmp]
      rcases next_asc hb with ⟨h1, h2⟩ | ⟨x, b', h1, h2, h3⟩
      · rw [h2, h1]; rfl
      · rw [h3, h2]
        dsimp only [listNext]
        simp only [Res.bind_ok]
        cases hc : a.cmp x with
        | eq => simp only [if_true, Res.pure_eq, Res.bind_ok]; exact ih l b' h1
        | lt => rfl
        | gt => rfl

/-- C79: `a.cmp(b)`, which is `Iterator::cmp` as the receiver is taken by value, compares the
ascending lists; `a.eq(b)` is `a == b`. -/
theorem C79_cmp (a b : Bitboard) (l k : List Square) (ha : a.Ascending l) (hb : b.Ascending k) (fuel : Nat)
    (hf : 81 < fuel) :
    ∃ a' r, drive Bitboard.next (Iter.cmp Bitboard.next Square.cmp) fuel b a = .ok (some (r, a')) ∧
      r = cmpList Square.cmp l k ∧ (r = .eq ↔ a = b) := by
  obtain ⟨k', e⟩ := list_cmp l (asc b) fuel (by have := length_le ha; omega)
  rw [← cmp_right l b hb.canonical fuel] at e
  obtain ⟨a', e', _⟩ := transfer ha e
  refine ⟨a', _, e', by rw [ascending_eq hb], ?_⟩
  rw [cmpList_eq Square.cmp_eq, ← ascending_eq hb]
  constructor
  · rintro rfl
    exact (C79_list b hb.canonical).2 a l hb ha
  · rintro rfl
    rw [ascending_eq ha, ascending_eq hb]

/-- C79: it is not the order of `Ord`: {1a, 1b} comes before {1b} as an iterator, and after it for
`Ord::cmp`. -/
theorem C79_refuted_cmp : ∃ (a b : Bitboard) (l k : List Square), a.Ascending l ∧ b.Ascending k ∧
    cmpList Square.cmp l k = .lt ∧ a.cmp b = .gt := by
  refine ⟨⟨3, 0⟩, ⟨2, 0⟩, asc ⟨3, 0⟩, asc ⟨2, 0⟩, asc_ascending (by decide), asc_ascending (by decide), ?_,
    by decide⟩
  decide +kernel

/-- C79: the bounds of `size_hint` hold at any time, and once `next` has said `None` it says so for
ever. -/
theorem C79_fused (b : Bitboard) (hb : b.Canonical) :
    (∀ l, b.Ascending l → b.size_hint.1 ≤ l.length ∧ ∀ u, b.size_hint.2 = some u → l.length ≤ u) ∧
    ∀ b', b.next = .ok (b', none) → b' = b ∧ b'.next = .ok (b', none) := by
  refine ⟨fun l h => ⟨Nat.zero_le _, fun u hu => ?_⟩, fun b' e => ?_⟩
  · simp only [Bitboard.size_hint, Option.some.injEq] at hu
    have := length_le h; omega
  · rcases next_asc hb with ⟨_, h2⟩ | ⟨_, _, _, _, h3⟩
    · rw [h2] at e; cases e; exact ⟨rfl, h2⟩
    · rw [h3] at e; cases e

/-! Cases. -/

/-- {1a, 1c, 9i}. -/
example : ∃ b : Bitboard, b.Ascending [⟨1⟩, ⟨3⟩, ⟨81⟩] ∧
    (∃ b', drive Bitboard.next Iter.nth 100 1 b = .ok (some (some ⟨3⟩, b')) ∧ b'.Ascending [⟨81⟩]) ∧
    ∃ b', drive Bitboard.next Iter.last 100 none b = .ok (some (some ⟨81⟩, b')) := by
  have h : (⟨5, 1 <<< 17⟩ : Bitboard).Ascending [⟨1⟩, ⟨3⟩, ⟨81⟩] := by
    have := asc_ascending (b := ⟨5, 1 <<< 17⟩) (by decide)
    rwa [show asc ⟨5, 1 <<< 17⟩ = [⟨1⟩, ⟨3⟩, ⟨81⟩] by decide +kernel] at this
  exact ⟨_, h, C79_nth _ _ h 100 (by decide) 1, (C79_min_max _ _ h 100 (by decide)).2.2.1⟩

end ShogiCore
