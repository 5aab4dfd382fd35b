import Verif.Spec.Boxed
import Verif.Props.Game
import Verif.Props.Heap

/- C69: the boxed positions of the C interface. -/

set_option linter.unusedSectionVars false

namespace ShogiCore

open PartialPosition

variable [P : Profile]

theorem mem_created {a : Nat} {es : List BoxEvent} : a ∈ created es ↔ .create a ∈ es := by
  simp only [created, List.mem_filterMap]
  constructor
  · rintro ⟨e, h, h'⟩
    cases e <;> simp only [BoxEvent.created?] at h' <;> cases h'
    exact h
  · exact fun h => ⟨_, h, rfl⟩

theorem created_append (es fs : List BoxEvent) : created (es ++ fs) = created es ++ created fs :=
  List.filterMap_append

theorem acceptedBy_append (a : Nat) (es fs : List BoxEvent) :
    acceptedBy a (es ++ fs) = acceptedBy a es ++ acceptedBy a fs := List.filterMap_append

structure BoxInv (L : Layout) (es : List BoxEvent) (s : BoxState) : Prop where
  reach : AllocReachable s.alloc
  hist : ∃ h : List (Nat × Nat), created es = h.map (·.2) ∧ s.used = h.map (·.1) ∧ s.used.Nodup ∧
    ∀ x ∈ h, s.alloc.Returned x.1 L x.2
  live : ∀ a, (s.objs a).isSome ↔ .create a ∈ es ∧ .destruct a ∉ es
  named : ∀ a, .create a ∉ es → (∀ mv b, .move a mv b ∉ es) ∧ .destruct a ∉ es
  value : ∀ a Q, s.objs a = some Q → ∃ p, PartialPosition.startpos = .ok p ∧
    Position.From p (acceptedBy a es) Q

theorem accepted_none {a : Nat} {es : List BoxEvent} (h : ∀ mv b, .move a mv b ∉ es) :
    acceptedBy a es = [] := by
  rw [acceptedBy, List.filterMap_eq_nil_iff]
  intro e he
  cases e with
  | move c mv b =>
    cases b <;> simp only [BoxEvent.accepted?]
    split
    · next h' => subst h'; exact absurd he (h _ _)
    · rfl
  | _ => rfl

theorem box_fresh {L : Layout} {es : List BoxEvent} {s : BoxState} (h : BoxInv L es s)
    (hL : 0 < L.size.toNat) {i a : Nat} (hr : s.alloc.Returned i L a) (hi : i ∉ s.used) :
    .create a ∉ es := by
  intro hc
  obtain ⟨hl, h1, h2, h3, h4⟩ := h.hist
  rw [← mem_created, h1, List.mem_map] at hc
  obtain ⟨x, hx, rfl⟩ := hc
  have ne : i ≠ x.1 := fun e => hi (by rw [h2, e]; exact List.mem_map_of_mem hx)
  exact C49_disjoint h.reach ne ⟨L, x.2, hr, Nat.le_refl _, by omega⟩
    ⟨L, x.2, h4 x hx, Nat.le_refl _, by omega⟩

theorem box_inv {L : Layout} (hL : 0 < L.size.toNat) {es : List BoxEvent} {s : BoxState}
    (r : BoxRun L es s) (hv : ∀ e ∈ es, e.Valid) : BoxInv L es s := by
  induction r with
  | init =>
    exact ⟨.init, ⟨[], rfl, rfl, .nil, by simp⟩, by simp [BoxState.init], by simp,
      by simp [BoxState.init]⟩
  | @step es s o t r st ih =>
    have ih := ih fun e he => hv e (List.mem_append_left _ he)
    cases st with
    | alloc ht =>
      obtain ⟨h, h1, h2, h3, h4⟩ := ih.hist
      simp only [Option.toList_none, List.append_nil]
      exact ⟨.trans ih.reach ht, ⟨h, h1, h2, h3, fun x hx => (trans_keeps ht).1 _ _ _ (h4 x hx)⟩,
        ih.live, ih.named, ih.value⟩
    | @create i a p ha hi hp =>
      have hr : s.alloc.Returned i L a.toNat := ⟨a, ha, rfl⟩
      have hf := box_fresh ih hL hr hi
      obtain ⟨hn1, hn2⟩ := ih.named _ hf
      obtain ⟨h, h1, h2, h3, h4⟩ := ih.hist
      simp only [Option.toList_some]
      refine ⟨ih.reach, ⟨h ++ [(i, a.toNat)], ?_, ?_, ?_, ?_⟩, ?_, ?_, ?_⟩
      · rw [created_append, h1, List.map_append]; rfl
      · simp only [BoxState.set, h2, List.map_append]; rfl
      · simp only [BoxState.set]
        rw [List.nodup_append]
        exact ⟨h3, by simp, fun x hx y hy => by
          simp only [List.mem_singleton] at hy; subst hy; exact fun e => hi (e ▸ hx)⟩
      · intro x hx
        rcases List.mem_append.1 hx with hx | hx
        · exact h4 x hx
        · simp only [List.mem_singleton] at hx; subst hx; exact hr
      · intro b
        simp only [BoxState.set, List.mem_append, List.mem_singleton, BoxEvent.create.injEq,
          reduceCtorEq, or_false]
        split
        · next e => subst e; simp [hn2]
        · next e => rw [ih.live b]; simp [e]
      · intro b hb
        simp only [List.mem_append, List.mem_singleton, BoxEvent.create.injEq, not_or] at hb
        simpa using ih.named b hb.1
      · intro b Q hQ
        simp only [BoxState.set] at hQ
        rw [acceptedBy_append, show acceptedBy b [.create a.toNat] = [] from rfl, List.append_nil]
        split at hQ
        · next e =>
          subst e; cases hQ
          rw [accepted_none hn1]
          rw [Position.startpos, startpos_ok] at hp
          rw [← Res.ok.inj hp]
          exact ⟨_, startpos_ok, .start⟩
        · exact ih.value b Q hQ
    | @move a p q mv c b ho hc hm =>
      have hmv : mv.Valid := hv (.move a mv b) (by simp)
      have hlive := ih.live a
      rw [ho] at hlive
      simp only [Option.isSome_some, true_iff] at hlive
      obtain ⟨h, h1, h2, h3, h4⟩ := ih.hist
      simp only [Option.toList_some]
      refine ⟨ih.reach, ⟨h, ?_, h2, h3, h4⟩, ?_, ?_, ?_⟩
      · rw [created_append, h1]; simp [created, BoxEvent.created?]
      · intro d
        simp only [BoxState.set, List.mem_append, List.mem_singleton, reduceCtorEq, or_false]
        split
        · next e => subst e; simp [hlive]
        · exact ih.live d
      · intro d hd
        simp only [List.mem_append, List.mem_singleton, reduceCtorEq, or_false] at hd
        have hda : d ≠ a := fun e => hd (e ▸ hlive.1)
        simpa [hda] using ih.named d hd
      · intro d Q hQ
        simp only [BoxState.set] at hQ
        rw [acceptedBy_append]
        split at hQ
        · next e =>
          subst e; cases hQ
          obtain ⟨p0, e0, hf⟩ := ih.value d p ho
          refine ⟨p0, e0, ?_⟩
          have := hf.make_compact_move hmv hc hm
          cases b
          · rw [show acceptedBy d [.move d mv false] = [] from rfl, List.append_nil]
            exact this
          · rw [show acceptedBy d [.move d mv true] = [mv] by simp [acceptedBy, BoxEvent.accepted?]]
            exact this
        · next e =>
          have : acceptedBy d [.move a mv b] = [] := by
            cases b <;> simp [acceptedBy, BoxEvent.accepted?, Ne.symm e]
          rw [this, List.append_nil]
          exact ih.value d Q hQ
    | @destruct a p ho =>
      have hlive := ih.live a
      rw [ho] at hlive
      simp only [Option.isSome_some, true_iff] at hlive
      obtain ⟨h, h1, h2, h3, h4⟩ := ih.hist
      simp only [Option.toList_some]
      refine ⟨ih.reach, ⟨h, ?_, h2, h3, h4⟩, ?_, ?_, ?_⟩
      · rw [created_append, h1]; simp [created, BoxEvent.created?]
      · intro d
        simp only [BoxState.set, List.mem_append, List.mem_singleton, reduceCtorEq, or_false,
          BoxEvent.destruct.injEq]
        split
        · next e => subst e; simp
        · next e => rw [ih.live d]; simp [e]
      · intro d hd
        simp only [List.mem_append, List.mem_singleton, reduceCtorEq, or_false] at hd
        have hda : d ≠ a := fun e => hd (e ▸ hlive.1)
        simpa [hda] using ih.named d hd
      · intro d Q hQ
        simp only [BoxState.set] at hQ
        rw [acceptedBy_append, show acceptedBy d [.destruct a] = [] from rfl, List.append_nil]
        split at hQ
        · cases hQ
        · exact ih.value d Q hQ

/-- C69: at every moment of every execution, the blocks of all handles ever made (destructed or
not) are pairwise disjoint and lie in the arena; in particular no handle is given out twice. -/
theorem C69_handles {L : Layout} (hL : 0 < L.size.toNat) {es : List BoxEvent} {s : BoxState}
    (r : BoxRun L es s) (hv : ∀ e ∈ es, e.Valid) :
    (created es).Pairwise (fun a b => a + L.size.toNat ≤ b ∨ b + L.size.toNat ≤ a) ∧
    (created es).Nodup ∧ ∀ a ∈ created es, a + L.size.toNat ≤ 128 * 1024 := by
  have inv := box_inv hL r hv
  obtain ⟨h, h1, h2, h3, h4⟩ := inv.hist
  have hp : (created es).Pairwise (fun a b => a + L.size.toNat ≤ b ∨ b + L.size.toNat ≤ a) := by
    rw [h1, List.pairwise_map]
    rw [h2, List.Nodup, List.pairwise_map] at h3
    refine h3.imp_of_mem fun {x y} hx hy ne => ?_
    have := (reachable_inv inv.reach).apart x.1 y.1 L L x.2 y.2 ne (h4 x hx) (h4 y hy)
    omega
  refine ⟨hp, hp.imp fun {a b} h => by omega, ?_⟩
  intro a ha
  rw [h1, List.mem_map] at ha
  obtain ⟨x, hx, rfl⟩ := ha
  exact (C49_inside inv.reach (h4 x hx)).1

/-- C69: a handle is live from its creation to its destruction, and the position behind it is the
start position with exactly the moves accepted through this handle, whatever was done with the
other handles and by other threads. -/
theorem C69_independent {L : Layout} (hL : 0 < L.size.toNat) {es : List BoxEvent} {s : BoxState}
    (r : BoxRun L es s) (hv : ∀ e ∈ es, e.Valid) (a : Nat) :
    ((s.objs a).isSome ↔ .create a ∈ es ∧ .destruct a ∉ es) ∧
    ∀ Q, s.objs a = some Q → ∃ p, PartialPosition.startpos = .ok p ∧
      Position.From p (acceptedBy a es) Q :=
  ⟨(box_inv hL r hv).live a, (box_inv hL r hv).value a⟩

theorem box_prefix {L : Layout} {fs : List BoxEvent} {t : BoxState} (r : BoxRun L fs t)
    {es : List BoxEvent} {e : BoxEvent} {es' : List BoxEvent} (h : fs = es ++ e :: es') :
    ∃ s s', BoxRun L es s ∧ BoxStep L s (some e) s' := by
  induction r generalizing es' with
  | init => simp at h
  | @step fs s o t r st ih =>
    cases o with
    | none => exact ih (by simpa using h)
    | some e' =>
      rcases List.eq_nil_or_concat es' with rfl | ⟨l, x, rfl⟩
      · rw [Option.toList_some] at h
        obtain ⟨rfl, h'⟩ := List.append_inj' h rfl
        cases h'
        exact ⟨s, t, r, st⟩
      · have : fs = es ++ e :: l := by
          rw [Option.toList_some, List.concat_eq_append, ← List.cons_append,
            ← List.append_assoc] at h
          exact (List.append_inj' h rfl).1
        exact ih this

/-- C69: the result of every move call is the one the game of this handle alone gives. -/
theorem C69_verdict {L : Layout} (hL : 0 < L.size.toNat) {es es' : List BoxEvent} {a : Nat}
    {mv : Move} {b : Bool} {s : BoxState} (r : BoxRun L (es ++ .move a mv b :: es') s)
    (hv : ∀ e ∈ es ++ .move a mv b :: es', e.Valid) :
    ∃ p Q R v, PartialPosition.startpos = .ok p ∧ Position.From p (acceptedBy a es) Q ∧
      Q.make_move mv = .ok (R, v) ∧ b = v.isSome := by
  obtain ⟨s1, s2, r1, st⟩ := box_prefix r rfl
  have hmv : mv.Valid := hv (.move a mv b) (by simp)
  cases st with
  | @move _ Q R _ c _ ho hc hm =>
    obtain ⟨p, e, hf⟩ := (box_inv hL r1 fun e he => hv e (List.mem_append_left _ he)).value a Q ho
    rw [C34_compact_position Q mv hmv c hc] at hm
    cases e2 : Q.make_move mv with
    | ok x =>
      obtain ⟨R', v⟩ := x
      rw [e2] at hm; simp only [Res.bind_ok, Res.pure_eq] at hm
      cases hm
      exact ⟨p, Q, _, v, e, hf, e2, rfl⟩
    | panic => rw [e2] at hm; cases hm
    | ub => rw [e2] at hm; cases hm

/-- C69: calls with live handles never fail. -/
theorem C69_total {L : Layout} (hL : 0 < L.size.toNat) {es : List BoxEvent} {s : BoxState}
    (r : BoxRun L es s) (hv : ∀ e ∈ es, e.Valid) {a : Nat} (ha : .create a ∈ es)
    (hd : .destruct a ∉ es) :
    (∀ mv : Move, mv.Valid → ∃ b t, BoxStep L s (some (.move a mv b)) t) ∧
    ∃ t, BoxStep L s (some (.destruct a)) t := by
  have h := ((box_inv hL r hv).live a).2 ⟨ha, hd⟩
  obtain ⟨Q, hQ⟩ := Option.isSome_iff_exists.1 h
  refine ⟨fun mv hmv => ?_, _, .destruct hQ⟩
  obtain ⟨p, e, hf⟩ := (box_inv hL r hv).value a Q hQ
  obtain ⟨c, hc, henc⟩ := CompactMove.ofMove_ok hmv
  have hr := (C33_replay p (.startpos e) _ Q hf).2.2.2.2
  have hm := C34_compact_position Q mv hmv c hc
  rw [position_make_move] at hm
  rcases make_move_ok (reach_ok hr) hmv with ⟨_, q', e', _⟩ | ⟨_, e'⟩ <;>
    rw [show Q.get_inner = Q.inner from rfl] at e' <;> rw [e'] at hm
  · exact ⟨_, _, .move hQ hc hm⟩
  · exact ⟨_, _, .move hQ hc hm⟩

theorem filter_set_length {l : List AllocThread} {f : AllocThread → Bool} {i : Nat}
    {x y : AllocThread} (hi : l[i]? = some y) (hy : f y = true) (hx : f x = false) :
    ((l.set i x).filter f).length + 1 = (l.filter f).length := by
  induction l generalizing i with
  | nil => simp at hi
  | cons z l ih =>
    cases i with
    | zero =>
      simp only [List.getElem?_cons_zero, Option.some.injEq] at hi
      subst hi
      simp [hy, hx]
    | succ i =>
      have := ih (i := i) (by simpa using hi)
      simp only [List.set_cons_succ, List.filter_cons]
      split
      · simp only [List.length_cons]; omega
      · exact this

theorem indices_le {f : AllocThread → Bool} {x : AllocThread} (hx : f x = false) (I : List Nat) :
    ∀ l : List AllocThread, I.Nodup → (∀ i ∈ I, ∃ y, l[i]? = some y ∧ f y = true) →
      I.length ≤ (l.filter f).length := by
  induction I with
  | nil => simp
  | cons i I ih =>
    intro l hn h
    obtain ⟨hi, hn⟩ := List.nodup_cons.1 hn
    obtain ⟨y, hy, hfy⟩ := h i (by simp)
    have h1 := ih (l.set i x) hn (by
      intro j hj
      obtain ⟨z, hz, hfz⟩ := h j (by simp [hj])
      have ne : i ≠ j := fun e => hi (e ▸ hj)
      exact ⟨z, by rw [List.getElem?_set_ne ne]; exact hz, hfz⟩)
    have h2 := filter_set_length hy hfy hx
    simp only [List.length_cons]; omega

/-- C69: destructing a position never makes room for another: the number of positions ever
created is bounded by the arena size.  A `Position` has two boards of 368 bytes each (C68) and a
vector of three words, so at most 172 calls of `Position_startpos` ever return on 64-bit targets
and at most 175 on 32-bit ones. -/
theorem C69_exhaustion {L : Layout} (hL : 0 < L.size.toNat) {es : List BoxEvent} {s : BoxState}
    (r : BoxRun L es s) (hv : ∀ e ∈ es, e.Valid) :
    (created es).length * L.size.toNat ≤ 128 * 1024 ∧
    (2 * 368 + 3 * 8 ≤ L.size.toNat → (created es).length ≤ 172) ∧
    (2 * 368 + 3 * 4 ≤ L.size.toNat → (created es).length ≤ 175) := by
  have inv := box_inv hL r hv
  obtain ⟨h, h1, h2, h3, h4⟩ := inv.hist
  have key : (created es).length * L.size.toNat ≤ 128 * 1024 := by
    refine Nat.le_trans (Nat.mul_le_mul_right _ ?_) (C64_exhaustion inv.reach L.size.toNat)
    have := indices_le (f := fun t => decide ((∃ o, t.pc = .done (some o)) ∧
      L.size.toNat ≤ t.layout.size.toNat)) (x := ⟨L, .start⟩) (by simp) s.used s.alloc.calls h3 (by
        intro i hi
        rw [h2, List.mem_map] at hi
        obtain ⟨y, hy, rfl⟩ := hi
        obtain ⟨o, ho, _⟩ := h4 y hy
        exact ⟨_, ho, by simp⟩)
    rw [h1, List.length_map]
    rw [h2, List.length_map] at this
    exact this
  refine ⟨key, fun hs => ?_, fun hs => ?_⟩ <;>
  · have := Nat.mul_le_mul_left (created es).length hs
    omega

theorem solo_box {L : Layout} {es : List BoxEvent} {u : List Nat} {o : Nat → Option Position}
    {i : Nat} {s t : AllocState} (r : BoxRun L es ⟨s, u, o⟩) (h : AllocSolo i s t) :
    BoxRun L es ⟨t, u, o⟩ := by
  induction h with
  | refl => exact r
  | step hi rem pc _ st ih =>
    have := BoxRun.step ih (.alloc (.step _ _ hi rem pc st))
    simpa using this

/-- The arena can be divided into blocks of any permitted alignment. -/
theorem arena_dvd {L : Layout} (hv : L.Valid) (ha : L.align.toNat ≤ 4096) :
    L.align.toNat ∣ 128 * 1024 := by
  obtain ⟨k, hk⟩ := hv
  have hk12 : k ≤ 12 := Nat.le_of_not_lt fun hk' => by
    have : 2 ^ 13 ≤ 2 ^ k := Nat.pow_le_pow_right (by omega) hk'
    omega
  rw [hk, show 128 * 1024 = 2 ^ 17 from rfl]
  exact Nat.pow_dvd_pow 2 (by omega)

theorem box_create {L : Layout} (hv : L.Valid) (ha : L.align.toNat ≤ 4096)
    (hm : L.align.toNat ∣ L.size.toNat) {es : List BoxEvent} {s : BoxState} (r : BoxRun L es s)
    (hr : AllocReachable s.alloc) (h5 : ∀ i ∈ s.used, i < s.alloc.calls.length)
    (hk : L.align.toNat ∣ s.alloc.remaining.toNat) (hs : L.size.toNat ≤ s.alloc.remaining.toNat) :
    ∃ a t p, BoxRun L (es ++ [.create a]) t ∧ Position.startpos = .ok p ∧
      t.objs = (s.set a (some p)).objs ∧ AllocReachable t.alloc ∧
      t.alloc.remaining.toNat = s.alloc.remaining.toNat - L.size.toNat ∧
      ∀ i ∈ t.used, i < t.alloc.calls.length := by
  have r1 : BoxRun L es
      ⟨{ s.alloc with calls := s.alloc.calls ++ [⟨L, .start⟩] }, s.used, s.objs⟩ := by
    simpa using BoxRun.step r (.alloc (.call s.alloc L))
  obtain ⟨t, ht, hc⟩ := C49_solo (s := s.alloc) L hv
  have r2 := solo_box r1 ht
  rcases hc with ⟨_, _, a, ⟨o, ho, rfl⟩, h6, h7, h8⟩ | ⟨hc, _⟩
  · have hr' : AllocReachable t := solo_reachable (.trans hr (.call _ _)) ht
    have ho' := C50_offset hr' hv ⟨o, ho, rfl⟩
    have hz : s.alloc.remaining.toNat - (o.toNat + L.size.toNat) = 0 :=
      Nat.eq_zero_of_dvd_of_lt
        (Nat.dvd_sub hk (Nat.dvd_add (Nat.dvd_of_mod_eq_zero ho') hm)) (by omega)
    have hp : Position.startpos = .ok (Position.arbitrary_position sp0) := by
      rw [Position.startpos, startpos_ok]; rfl
    have r3 := BoxRun.step r2 (.create ho (fun hi => absurd (h5 _ hi) (by omega)) hp)
    refine ⟨o.toNat, _, _, r3, hp, rfl, hr', ?_, ?_⟩
    · simp only [BoxState.set]; omega
    · have hlen : s.alloc.calls.length < t.calls.length := (List.getElem?_eq_some_iff.1 ho).1
      intro i hi
      simp only [BoxState.set, List.mem_append, List.mem_singleton] at hi ⊢
      rcases hi with hi | rfl
      · exact Nat.lt_trans (h5 i hi) hlen
      · exact hlen
  · omega

/-- C69: the bound is exact whatever the layout of `Position` (sizes are multiples of alignments),
and no destruction helps: a program that destructs every position before it asks for the next one
gets as many as fit into the arena side by side; by `C69_exhaustion` it never gets another,
although nothing is live. -/
theorem C69_reached {L : Layout} (hv : L.Valid) (ha : L.align.toNat ≤ 4096)
    (hm : L.size.toNat % L.align.toNat = 0) (n : Nat) (hn : n * L.size.toNat ≤ 128 * 1024) :
    ∃ es s, BoxRun L es s ∧ (∀ e ∈ es, e.Valid) ∧ (created es).length = n ∧
      ∀ a, s.objs a = none := by
  have hm := Nat.dvd_of_mod_eq_zero hm
  suffices ∃ es s, BoxRun L es s ∧ (∀ e ∈ es, e.Valid) ∧
      (created es).length = n ∧ (∀ a, s.objs a = none) ∧ AllocReachable s.alloc ∧
      s.alloc.remaining.toNat = 128 * 1024 - n * L.size.toNat ∧
      ∀ i ∈ s.used, i < s.alloc.calls.length by
    obtain ⟨es, s, r, h1, h2, h3, _⟩ := this
    exact ⟨es, s, r, h1, h2, h3⟩
  induction n with
  | zero =>
    refine ⟨[], .init, .init, by simp, rfl, fun _ => rfl, .init, ?_, by simp [BoxState.init]⟩
    rw [show BoxState.init.alloc.remaining.toNat = 131072 from arena_toNat]; omega
  | succ n ih =>
    rw [Nat.succ_mul] at hn
    obtain ⟨es, s, r, h1, h2, h3, h4, h5, h6⟩ := ih (by omega)
    obtain ⟨a, t, p, r3, hp, ho, h7, h8, h9⟩ := box_create hv ha hm r h4 h6
      (by rw [h5]; exact Nat.dvd_sub (arena_dvd hv ha) (Nat.dvd_trans hm (Nat.dvd_mul_left _ _)))
      (by omega)
    have r4 := BoxRun.step r3 (.destruct (a := a) (p := p) (by rw [ho]; simp [BoxState.set]))
    refine ⟨_, _, r4, ?_, ?_, ?_, h7, ?_, h9⟩
    · intro e he
      simp only [Option.toList_some, List.mem_append, List.mem_singleton] at he
      rcases he with (he | rfl) | rfl
      · exact h1 e he
      · trivial
      · trivial
    · simp only [created_append, List.length_append, h2]; rfl
    · intro b
      simp only [BoxState.set]
      split
      · rfl
      · next e => rw [ho]; simp only [BoxState.set, if_neg e]; exact h3 b
    · simp only [BoxState.set, Nat.succ_mul]; omega

/-- C69: the figures for a `Position` as large as its parts: 172 positions on a 64-bit target (760
bytes aligned to 8), 175 on a 32-bit one (748 bytes aligned to 4). -/
theorem C69_refuted_release :
    (∃ es s, BoxRun ⟨760, 8⟩ es s ∧ (∀ e ∈ es, e.Valid) ∧
      (created es).length = 172 ∧ ∀ a, s.objs a = none) ∧
    ∃ es s, BoxRun ⟨748, 4⟩ es s ∧ (∀ e ∈ es, e.Valid) ∧
      (created es).length = 175 ∧ ∀ a, s.objs a = none := by
  have e1 : (⟨760, 8⟩ : Layout).size.toNat = 760 := usize_toNat (by decide)
  have e2 : (⟨760, 8⟩ : Layout).align.toNat = 8 := usize_toNat (by decide)
  have e3 : (⟨748, 4⟩ : Layout).size.toNat = 748 := usize_toNat (by decide)
  have e4 : (⟨748, 4⟩ : Layout).align.toNat = 4 := usize_toNat (by decide)
  exact ⟨C69_reached ⟨3, e2⟩ (by omega) (by rw [e1, e2]) 172 (by rw [e1]; decide),
    C69_reached ⟨2, e4⟩ (by omega) (by rw [e3, e4]) 175 (by rw [e3]; decide)⟩

/-- Non-vacuity: two positions, a move through the first, the second destructed, and a third
created; the first has one move, the third none. -/
example : ∃ a b c s, BoxRun ⟨760, 8⟩ [.create a, .create b,
      .move a (.Normal (Square.at 7 7) (Square.at 7 6) false) true, .destruct b, .create c] s ∧
    (∃ Q, s.objs a = some Q ∧ Q.get_moves = [.Normal (Square.at 7 7) (Square.at 7 6) false]) ∧
    s.objs b = none ∧ ∃ Q, s.objs c = some Q ∧ Q.get_moves = [] := by
  have e1 : (⟨760, 8⟩ : Layout).size.toNat = 760 := usize_toNat (by decide)
  have e2 : (⟨760, 8⟩ : Layout).align.toNat = 8 := usize_toNat (by decide)
  have hL : 0 < (⟨760, 8⟩ : Layout).size.toNat := by omega
  have v : (⟨760, 8⟩ : Layout).Valid := ⟨3, e2⟩
  have v1 : (⟨760, 8⟩ : Layout).align.toNat ≤ 4096 := by omega
  have v2 : (⟨760, 8⟩ : Layout).align.toNat ∣ (⟨760, 8⟩ : Layout).size.toNat := by
    rw [e1, e2]; decide
  have k0 : BoxState.init.alloc.remaining.toNat = 131072 := arena_toNat
  obtain ⟨q0, hp, i0⟩ : ∃ q0, Position.startpos = .ok q0 ∧ q0.inner = sp0 :=
    ⟨Position.arbitrary_position sp0, by rw [Position.startpos, startpos_ok]; rfl,
      by rw [Position.arbitrary_position]⟩
  obtain ⟨a, s1, p1, r1, hp1, o1, a1, k1, u1⟩ :=
    box_create v v1 v2 .init .init (by simp [BoxState.init]) (by rw [k0, e2]; decide) (by omega)
  rw [k0, e1] at k1
  obtain ⟨b, s2, p2, r2, hp2, o2, a2, k2, u2⟩ :=
    box_create v v1 v2 r1 a1 u1 (by rw [k1, e2]; decide) (by omega)
  rw [k1, e1] at k2
  obtain rfl := Res.ok.inj (hp.symm.trans hp1)
  obtain rfl := Res.ok.inj (hp.symm.trans hp2)
  have nd := (C69_handles hL r2 (by simp [BoxEvent.Valid])).2.1
  have hab : a ≠ b := by
    simp only [created, List.nil_append, List.cons_append, List.filterMap_cons, BoxEvent.created?,
      List.filterMap_nil, List.nodup_cons, List.mem_singleton] at nd
    exact nd.1
  have h1 : sp0.cell (Square.at 7 7).idx0 = some (Piece.mk' .Pawn .Black) ∧
    sp0.cell (Square.at 7 6).idx0 = none ∧ sp0.side = .Black := by decide +kernel
  have acc : sp0.Acc (.Normal (Square.at 7 7) (Square.at 7 6) false) :=
    ⟨.Pawn, by rw [h1.2.2]; exact h1.1, .inl h1.2.1, fun _ => ⟨_, rfl⟩⟩
  have hm : Move.Valid (.Normal (Square.at 7 7) (Square.at 7 6) false) := ⟨by decide, by decide⟩
  obtain ⟨c, hc, henc⟩ := CompactMove.ofMove_ok hm
  obtain ⟨q, hq⟩ : ∃ q, q0.make_compact_move c = .ok (q, true) := by
    rw [C34_compact_position q0 _ hm c hc, position_make_move, i0]
    rcases make_move_ok (reach_ok (.startpos startpos_ok)) hm with ⟨_, q', e', _⟩ | ⟨hn, _⟩
    · rw [e']; exact ⟨_, rfl⟩
    · exact absurd acc hn
  have oa : s2.objs a = some q0 := by
    rw [o2]; simp only [BoxState.set, if_neg hab, o1, if_true]
  have r3 := BoxRun.step r2 (.move oa hc hq)
  have r4 := BoxRun.step r3 (.destruct (a := b) (p := q0) (by
    simp only [BoxState.set, if_neg (Ne.symm hab)]; rw [o2]; simp only [BoxState.set, if_true]))
  obtain ⟨d, s5, p5, r5, hp5, o5, _⟩ := box_create v v1 v2 r4 a2 u2
    (by simp only [BoxState.set]; rw [k2, e2]; decide) (by simp only [BoxState.set]; rw [k2, e1]; decide)
  have hv : ∀ e ∈ [BoxEvent.create a, .create b,
      .move a (.Normal (Square.at 7 7) (Square.at 7 6) false) true, .destruct b, .create d],
      e.Valid := by
    simp [BoxEvent.Valid, hm]
  have nd := (C69_handles hL r5 hv).2.1
  have hd : ¬ b = d ∧ ¬ a = d := by
    simp [created, BoxEvent.created?, hab] at nd
    exact ⟨fun e => nd.2.1 e.symm, fun e => nd.1 e.symm⟩
  have key : ∀ x, (.create x) ∈ [BoxEvent.create a, .create b, .create d] → x ≠ b →
      ∃ Q, s5.objs x = some Q ∧ Q.get_moves =
        acceptedBy x [.move a (.Normal (Square.at 7 7) (Square.at 7 6) false) true] := by
    intro x hx hxb
    obtain ⟨l1, l2⟩ := C69_independent hL r5 hv x
    have := l1.2 ⟨by simp at hx ⊢; exact hx, by simp [hxb]⟩
    obtain ⟨Q, hQ⟩ := Option.isSome_iff_exists.1 this
    obtain ⟨p, hp, hf⟩ := l2 Q hQ
    exact ⟨Q, hQ, (C33_replay p (.startpos hp) _ Q hf).2.1⟩
  refine ⟨a, b, d, s5, r5, ?_, ?_, ?_⟩
  · simpa [acceptedBy, BoxEvent.accepted?] using key a (by simp) hab
  · have := (C69_independent hL r5 hv b).1
    simpa using this
  · simpa [acceptedBy, BoxEvent.accepted?, hd.2] using key d (by simp) (Ne.symm hd.1)

end ShogiCore
