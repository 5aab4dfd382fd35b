import Verif.Model.Recorder
import Verif.Spec.Recorder
import Verif.Props.Boxed
import Verif.Props.Repetition

/- C71: how long the games are that the boxed positions of the C interface can record. -/

set_option linter.unusedSectionVars false

namespace ShogiCore

open PartialPosition

variable [P : Profile]

/-! ### Arithmetic of growing buffers -/

omit P in
theorem room_le {grow : Nat → Nat} (hg : ∀ c, c < grow c) (n : Nat) :
    n ≤ (room grow n).1 ∧ (room grow n).1 ≤ (room grow n).2 := by
  induction n with
  | zero => simp [room]
  | succ n ih =>
    obtain ⟨h1, h2⟩ := ih
    simp only [room]
    split
    · next e =>
      have := hg (room grow n).1
      exact ⟨by simp only []; omega, by simp only []; omega⟩
    · exact ⟨by simp only []; omega, h2⟩

omit P in
theorem doubling_lt (c : Nat) : c < doubling c := by unfold doubling; omega

omit P in
theorem room_doubling (n : Nat) : 0 < n →
    ∃ k, (room doubling n).1 = 4 * 2 ^ k ∧ (room doubling n).2 = 2 * (4 * 2 ^ k) - 4 ∧
      (0 < k → 2 * 2 ^ k < n) := by
  induction n with
  | zero => exact fun h => absurd h (Nat.lt_irrefl _)
  | succ n ih =>
    intro _
    by_cases hn : n = 0
    · subst hn; exact ⟨0, by decide, by decide, by simp⟩
    · obtain ⟨k, h1, h2, h3⟩ := ih (by omega)
      have hp : 0 < 2 ^ k := Nat.pos_of_ne_zero (by simp)
      simp only [room]
      split
      · next e =>
        refine ⟨k + 1, ?_, ?_, ?_⟩
        · simp only [doubling, h1, Nat.pow_succ]; omega
        · simp only [doubling, h1, h2, Nat.pow_succ]; omega
        · intro _; rw [h1] at e; rw [Nat.pow_succ]; omega
      · next e =>
        exact ⟨k, h1, h2, fun hk => by have := h3 hk; omega⟩

omit P in
theorem sum_update {l : List Nat} (hn : l.Nodup) {a : Nat} (ha : a ∈ l) {f f' : Nat → Nat}
    (h : ∀ b, b ≠ a → f' b = f b) : (l.map f').sum + f a = (l.map f).sum + f' a := by
  induction l with
  | nil => simp at ha
  | cons x l ih =>
    obtain ⟨hx, hn⟩ := List.nodup_cons.1 hn
    simp only [List.map_cons, List.sum_cons]
    by_cases e : x = a
    · subst e
      have : l.map f' = l.map f := List.map_congr_left fun b hb => h b fun e => hx (e ▸ hb)
      rw [this]; omega
    · have := ih hn (by simpa [Ne.symm e] using ha)
      rw [h x e]; omega

/-- Different calls are granted different bytes. -/
theorem indices_sum (I : List Nat) : ∀ l : List AllocThread, I.Nodup →
    (∀ i ∈ I, i < l.length) →
    (I.map fun i => ((l[i]?).map AllocThread.granted).getD 0).sum ≤
      (l.map AllocThread.granted).sum := by
  induction I with
  | nil => simp
  | cons i I ih =>
    intro l hn h
    obtain ⟨hi, hn⟩ := List.nodup_cons.1 hn
    have hil := h i (by simp)
    have h1 := ih (l.set i ⟨⟨0, 1⟩, .start⟩) hn (by
      intro j hj; rw [List.length_set]; exact h j (by simp [hj]))
    have h2 := sum_set_call hil (⟨⟨0, 1⟩, .start⟩ : AllocThread)
    have h3 : (I.map fun j => (((l.set i ⟨⟨0, 1⟩, .start⟩)[j]?).map AllocThread.granted).getD 0) =
        I.map fun j => ((l[j]?).map AllocThread.granted).getD 0 :=
      List.map_congr_left fun j hj => by
        have ne : i ≠ j := fun e => hi (e ▸ hj)
        rw [List.getElem?_set_ne ne]
    rw [h3] at h1
    simp only [List.map_cons, List.sum_cons, List.getElem?_eq_getElem hil, Option.map_some,
      Option.getD_some]
    have : (⟨⟨0, 1⟩, .start⟩ : AllocThread).granted = 0 := rfl
    omega

/-! ### Refinement -/

/-- What remains if the buffers are forgotten. -/
def RecState.boxes (s : RecState) : BoxState := ⟨s.alloc, s.used, fun a => (s.objs a).map (·.pos)⟩

theorem boxes_set (s : RecState) (a : Nat) (r : Option Recorder) :
    (s.set a r).boxes = s.boxes.set a (r.map (·.pos)) := by
  simp only [RecState.boxes, RecState.set, BoxState.set]
  congr 1
  funext b
  split <;> rfl

/-- C71: a run with buffers is a run without (so that C69 applies to it). -/
theorem C71_refines {L M : Layout} {grow : Nat → Nat} {es : List BoxEvent} {s : RecState}
    (r : RecRun L M grow es s) : BoxRun L es s.boxes := by
  induction r with
  | init => exact .init
  | step _ st ih =>
    refine .step ih ?_
    cases st with
    | alloc ht => exact .alloc ht
    | create h1 h2 h3 h4 => rw [boxes_set]; exact .create h1 h2 h4
    | move h1 h2 h3 h4 =>
      rw [boxes_set]
      exact .move (by simp only [RecState.boxes, h1]; rfl) h2 h3
    | grow h1 h2 h3 h4 h5 h6 h7 h8 =>
      rw [boxes_set]
      exact .move (s := RecState.boxes _) (by simp only [RecState.boxes, h1]; rfl) h2 h3
    | destruct h1 =>
      rw [boxes_set]
      exact .destruct (by simp only [RecState.boxes, h1]; rfl)

omit P in
theorem half_bits [Profile] : 2 ^ 31 ≤ 2 ^ (Profile.bits - 1) :=
  Nat.pow_le_pow_right (by decide) (by
    have : 32 ≤ Profile.bits := by unfold Profile.bits; cases Profile.build.ptr <;> decide
    omega)

theorem array_size {M : Layout} {n : Nat} (h : n * M.size.toNat < 2 ^ (Profile.bits - 1)) :
    (M.array n).size.toNat = n * M.size.toNat := by
  simp only [Layout.array, BitVec.toNat_ofNat]
  exact Nat.mod_eq_of_lt (Nat.lt_of_lt_of_le h (Nat.pow_le_pow_right (by decide) (Nat.sub_le _ _)))

/-- Handles, buffers (with capacities) and moves. -/
structure RecInv (L M : Layout) (grow : Nat → Nat) (es : List BoxEvent) (s : RecState) : Prop where
  bufs : ∃ h : List (Nat × Nat), s.bufs = h.map (·.1) ∧
    (∀ x ∈ h, x.2 * M.size.toNat < 2 ^ (Profile.bits - 1) ∧ ∃ a, s.alloc.Returned x.1 (M.array x.2) a) ∧
    (h.map fun x => M.size.toNat * x.2).sum = recorded grow M.size.toNat es (created es)
  nodup : (s.used ++ s.bufs).Nodup
  cap : ∀ a r, s.objs a = some r → r.cap = (room grow r.pos.moves.length).1

theorem box_moves {L : Layout} (hL : 0 < L.size.toNat) {es : List BoxEvent} {s : BoxState}
    (r : BoxRun L es s) (hv : ∀ e ∈ es, e.Valid) {a : Nat} {Q : Position} (h : s.objs a = some Q) :
    Q.moves = acceptedBy a es := by
  obtain ⟨p, hp, hf⟩ := (box_inv hL r hv).value a Q h
  exact (C33_replay p (.startpos hp) _ Q hf).2.1

theorem acceptedBy_step (a b : Nat) (es : List BoxEvent) (mv : Move) :
    acceptedBy b (es ++ [.move a mv true]) =
      if b = a then acceptedBy b es ++ [mv] else acceptedBy b es := by
  rw [acceptedBy_append]
  by_cases e : b = a
  · subst e; simp [acceptedBy, BoxEvent.accepted?]
  · rw [if_neg e]; simp [acceptedBy, BoxEvent.accepted?, Ne.symm e]

theorem acceptedBy_skip (b : Nat) (es : List BoxEvent) (e : BoxEvent)
    (h : ∀ a mv, e ≠ .move a mv true) : acceptedBy b (es ++ [e]) = acceptedBy b es := by
  rw [acceptedBy_append]
  have : acceptedBy b [e] = [] := by
    cases e with
    | move a mv v => cases v with
      | true => exact absurd rfl (h a mv)
      | false => rfl
    | _ => rfl
  rw [this, List.append_nil]

theorem recorded_skip (grow : Nat → Nat) (z : Nat) (es : List BoxEvent) (e : BoxEvent)
    (h : ∀ a mv, e ≠ .move a mv true) (hs : List Nat) :
    recorded grow z (es ++ [e]) hs = recorded grow z es hs := by
  simp only [recorded, acceptedBy_skip _ es e h]

theorem recorded_step (grow : Nat → Nat) (z : Nat) (es : List BoxEvent) {hs : List Nat}
    (hn : hs.Nodup) {a : Nat} (ha : a ∈ hs) (mv : Move) :
    recorded grow z (es ++ [.move a mv true]) hs + z * (room grow (acceptedBy a es).length).2 =
      recorded grow z es hs + z * (room grow ((acceptedBy a es).length + 1)).2 := by
  have := sum_update hn ha (f := fun b => z * (room grow (acceptedBy b es).length).2)
    (f' := fun b => z * (room grow (acceptedBy b (es ++ [.move a mv true])).length).2) (by
      intro b hb
      simp only [acceptedBy_step, if_neg hb])
  simp only [acceptedBy_step, if_true, List.length_append, List.length_singleton] at this
  simp only [recorded, acceptedBy_step]
  exact this

theorem created_skip (es : List BoxEvent) (e : BoxEvent) (h : ∀ a, e ≠ .create a) :
    created (es ++ [e]) = created es := by
  rw [created_append]
  have : created [e] = [] := by
    cases e with
    | create a => exact absurd rfl (h a)
    | _ => rfl
  rw [this, List.append_nil]

/-- The list of moves after a call. -/
theorem compact_moves {L : Layout} (hL : 0 < L.size.toNat) {es : List BoxEvent} {s : BoxState}
    (r : BoxRun L es s) {a : Nat} {p q : Position} {mv : Move} {c : CompactMove} {b : Bool}
    (hv : ∀ e ∈ es ++ [.move a mv b], e.Valid)
    (ho : s.objs a = some p) (hc : CompactMove.ofMove mv = .ok c)
    (hm : p.make_compact_move c = .ok (q, b)) :
    q.moves = if b then p.moves ++ [mv] else p.moves := by
  have h1 := box_moves hL r (fun e he => hv e (List.mem_append_left _ he)) ho
  have r2 := BoxRun.step r (.move ho hc hm)
  have h2 := box_moves hL r2 hv (a := a) (Q := q) (by simp [BoxState.set])
  rw [h2, h1]
  cases b with
  | true => simp only [Option.toList_some, acceptedBy_step, if_true]
  | false =>
    simp only [Option.toList_some, acceptedBy_skip a es (.move a mv false) (by simp)]; rfl

omit P in
theorem nodup_snoc {l : List Nat} {i : Nat} (h : l.Nodup) (hi : i ∉ l) : (l ++ [i]).Nodup := by
  rw [List.nodup_append]
  exact ⟨h, by simp, fun x hx y hy => by
    simp only [List.mem_singleton] at hy; subst hy; exact fun e => hi (e ▸ hx)⟩

theorem rec_inv {L M : Layout} (hL : 0 < L.size.toNat) {grow : Nat → Nat}
    {es : List BoxEvent} {s : RecState} (r : RecRun L M grow es s) (hv : ∀ e ∈ es, e.Valid) :
    RecInv L M grow es s := by
  induction r with
  | init =>
    exact ⟨⟨[], rfl, by simp, rfl⟩, by simp [RecState.init], by simp [RecState.init]⟩
  | @step es s o t r st ih =>
    have hv' : ∀ e ∈ es, e.Valid := fun e he => hv e (List.mem_append_left _ he)
    have ih := ih hv'
    have rb := C71_refines r
    have bi := box_inv hL rb hv'
    obtain ⟨h, h1, h2, h3⟩ := ih.bufs
    cases st with
    | alloc ht =>
      simp only [Option.toList_none, List.append_nil]
      refine ⟨⟨h, h1, fun x hx => ?_, h3⟩, ih.nodup, ih.cap⟩
      obtain ⟨h4, a, h5⟩ := h2 x hx
      exact ⟨h4, a, (trans_keeps ht).1 _ _ _ h5⟩
    | @create i a p ha hi hb hp =>
      have hf : .create a.toNat ∉ es := box_fresh bi hL ⟨a, ha, rfl⟩ hi
      have hacc := accepted_none (bi.named _ hf).1
      simp only [Option.toList_some]
      refine ⟨⟨h, h1, h2, ?_⟩, ?_, ?_⟩
      · rw [h3, recorded_skip _ _ _ _ (by simp), created_append]
        simp only [recorded, List.map_append, List.sum_append]
        simp [created, BoxEvent.created?, hacc, room]
      · simp only [RecState.set]
        have := ih.nodup
        rw [List.append_assoc, List.nodup_append] at *
        obtain ⟨n1, n2, n3⟩ := this
        refine ⟨n1, ?_, ?_⟩
        · simpa using ⟨hb, n2⟩
        · intro x hx y hy
          simp only [List.mem_append, List.mem_singleton] at hy
          rcases hy with rfl | hy
          · exact fun e => hi (e ▸ hx)
          · exact n3 x hx y hy
      · intro b q hq
        simp only [RecState.set] at hq
        split at hq
        · cases hq
          have := box_moves hL (BoxRun.step rb (.create ha hi hp)) hv (a := a.toNat) (Q := p)
            (by simp [BoxState.set])
          rw [Option.toList_some, acceptedBy_skip _ _ _ (by simp), hacc] at this
          rw [this]; rfl
        · exact ih.cap b q hq
    | @move a p q mv c b ho hc hm hb =>
      have hbox : s.boxes.objs a = some p.pos := by simp only [RecState.boxes, ho]; rfl
      have hmoves := compact_moves hL rb hv hbox hc hm
      have hpm := box_moves hL rb hv' hbox
      have hcr : a ∈ created es := mem_created.2
        ((bi.live a).1 (by rw [hbox]; rfl)).1
      have hcap := ih.cap a p ho
      simp only [Option.toList_some]
      refine ⟨⟨h, h1, h2, ?_⟩, ih.nodup, ?_⟩
      · rw [created_skip _ _ (by simp)]
        cases b with
        | false => rw [h3, recorded_skip _ _ _ _ (by simp)]
        | true =>
          have := recorded_step grow M.size.toNat es (C69_handles hL rb hv').2.1 hcr mv
          have hne := hb rfl
          rw [hcap, hpm] at hne
          rw [show (room grow ((acceptedBy a es).length + 1)) = room grow (acceptedBy a es).length by
            simp only [room, if_neg hne]] at this
          rw [h3]; omega
      · intro d q' hq
        simp only [RecState.set] at hq
        split at hq
        · cases hq
          rw [hmoves]
          cases b with
          | false => simpa using hcap
          | true =>
            have hne := hb rfl
            rw [hcap] at hne
            simp only [if_true, List.length_append, List.length_singleton, room, if_neg hne]
            exact hcap
        · exact ih.cap d q' hq
    | @grow a i o p q mv c ho hc hm hlen hsz hr hi hb =>
      have hbox : s.boxes.objs a = some p.pos := by simp only [RecState.boxes, ho]; rfl
      have hmoves := compact_moves hL rb hv hbox hc hm
      have hpm := box_moves hL rb hv' hbox
      have hcr : a ∈ created es := mem_created.2
        ((bi.live a).1 (by rw [hbox]; rfl)).1
      have hcap := ih.cap a p ho
      have e1 : (acceptedBy a es).length = (room grow (acceptedBy a es).length).1 := by
        rw [hcap, hpm] at hlen; exact hlen
      have e2 : room grow ((acceptedBy a es).length + 1) =
          (grow p.cap, (room grow (acceptedBy a es).length).2 + grow p.cap) := by
        simp only [room, if_pos e1]; rw [hcap, hpm]
      simp only [Option.toList_some]
      refine ⟨⟨h ++ [(i, grow p.cap)], ?_, ?_, ?_⟩, ?_, ?_⟩
      · simp only [RecState.set, h1, List.map_append]; rfl
      · intro x hx
        rcases List.mem_append.1 hx with hx | hx
        · exact h2 x hx
        · simp only [List.mem_singleton] at hx; subst hx; exact ⟨hsz, _, o, hr, rfl⟩
      · rw [created_skip _ _ (by simp)]
        have := recorded_step grow M.size.toNat es (C69_handles hL rb hv').2.1 hcr mv
        rw [e2, Nat.mul_add] at this
        simp only [List.map_append, List.sum_append, h3, List.map_cons, List.map_nil,
          List.sum_cons, List.sum_nil]
        omega
      · simp only [RecState.set]
        rw [← List.append_assoc]
        exact nodup_snoc ih.nodup (by simp [hi, hb])
      · intro d q' hq
        simp only [RecState.set] at hq
        split at hq
        · cases hq
          rw [hmoves]
          simp only [if_true, List.length_append, List.length_singleton]
          rw [hpm, e2]
        · exact ih.cap d q' hq
    | @destruct a p ho =>
      simp only [Option.toList_some]
      refine ⟨⟨h, h1, h2, ?_⟩, ih.nodup, ?_⟩
      · rw [h3, recorded_skip _ _ _ _ (by simp), created_skip _ _ (by simp)]
      · intro d q' hq
        simp only [RecState.set] at hq
        split at hq
        · cases hq
        · exact ih.cap d q' hq

/-- C71: at every moment of every execution, the arena has paid for all positions ever created and
for every buffer their moves have ever been in, including those of destructed positions and those
outgrown. -/
theorem C71_cost {L M : Layout} (hL : 0 < L.size.toNat) {grow : Nat → Nat} {es : List BoxEvent}
    {s : RecState} (r : RecRun L M grow es s) (hv : ∀ e ∈ es, e.Valid) :
    (created es).length * L.size.toNat + recorded grow M.size.toNat es (created es) ≤
      128 * 1024 := by
  have inv := rec_inv hL r hv
  have bi := box_inv hL (C71_refines r) hv
  obtain ⟨h, h1, h2, h3⟩ := inv.bufs
  obtain ⟨g, g1, g2, g3, g4⟩ := bi.hist
  have bud := C64_budget bi.reach
  have key := indices_sum (s.used ++ s.bufs) s.alloc.calls inv.nodup (by
    intro i hi
    rcases List.mem_append.1 hi with hi | hi
    · rw [show s.used = _ from g2, List.mem_map] at hi
      obtain ⟨x, hx, rfl⟩ := hi
      obtain ⟨o, ho, _⟩ := g4 x hx
      exact (List.getElem?_eq_some_iff.1 ho).1
    · rw [h1, List.mem_map] at hi
      obtain ⟨x, hx, rfl⟩ := hi
      obtain ⟨_, _, o, ho, _⟩ := h2 x hx
      exact (List.getElem?_eq_some_iff.1 ho).1)
  rw [List.map_append, List.sum_append] at key
  have ka : (s.used.map fun i => ((s.alloc.calls[i]?).map AllocThread.granted).getD 0) =
      g.map fun _ => L.size.toNat := by
    rw [show s.used = _ from g2, List.map_map]
    refine List.map_congr_left fun x hx => ?_
    obtain ⟨o, ho, _⟩ := g4 x hx
    simp only [Function.comp, show s.alloc.calls[x.1]? = _ from ho]; rfl
  have kb : (s.bufs.map fun i => ((s.alloc.calls[i]?).map AllocThread.granted).getD 0) =
      h.map fun x => M.size.toNat * x.2 := by
    rw [h1, List.map_map]
    refine List.map_congr_left fun x hx => ?_
    obtain ⟨h4, a, o, ho, _⟩ := h2 x hx
    simp only [Function.comp, ho, Option.map_some, Option.getD_some, AllocThread.granted]
    rw [array_size h4, Nat.mul_comm]
  rw [ka, kb, h3, List.map_const', List.sum_replicate_nat] at key
  have : (created es).length = g.length := by rw [g1, List.length_map]
  rw [this]
  have : s.alloc.granted = (s.alloc.calls.map AllocThread.granted).sum := rfl
  have : s.boxes.alloc = s.alloc := rfl
  rw [this] at bud
  omega

/-- C71: the capacity behind a handle depends only on the number of moves accepted through it, and
suffices. -/
theorem C71_capacity {L M : Layout} (hL : 0 < L.size.toNat) {grow : Nat → Nat}
    (hg : ∀ c, c < grow c) {es : List BoxEvent} {s : RecState} (r : RecRun L M grow es s)
    (hv : ∀ e ∈ es, e.Valid) {a : Nat} {p : Recorder} (h : s.objs a = some p) :
    p.pos.get_moves = acceptedBy a es ∧ p.cap = (room grow (acceptedBy a es).length).1 ∧
      (acceptedBy a es).length ≤ p.cap := by
  have hm : p.pos.moves = acceptedBy a es := box_moves hL (C71_refines r) hv
    (by simp only [RecState.boxes, h]; rfl)
  have hc := (rec_inv hL r hv).cap a p h
  rw [hm] at hc
  exact ⟨hm, hc, hc ▸ (room_le hg _).1⟩

theorem accepted_sum {hs : List Nat} (hn : hs.Nodup) (es : List BoxEvent)
    (h : ∀ a mv, .move a mv true ∈ es → a ∈ hs) :
    (hs.map fun a => (acceptedBy a es).length).sum = (acceptedAll es).length := by
  induction es with
  | nil =>
    simp only [acceptedBy, acceptedAll, List.filterMap_nil, List.length_nil]
    rw [List.map_const', List.sum_replicate_nat, Nat.mul_zero]
  | cons e es ih =>
    have ih := ih fun a mv hm => h a mv (List.mem_cons_of_mem _ hm)
    by_cases he : ∃ a mv, e = .move a mv true
    · obtain ⟨a, mv, rfl⟩ := he
      have := sum_update hn (h a mv (by simp)) (f := fun b => (acceptedBy b es).length)
        (f' := fun b => (acceptedBy b (.move a mv true :: es)).length) (by
          intro b hb; simp [acceptedBy, BoxEvent.accepted?, Ne.symm hb])
      have e1 : (acceptedBy a (.move a mv true :: es)).length = (acceptedBy a es).length + 1 := by
        simp [acceptedBy, BoxEvent.accepted?]
      have e2 : (acceptedAll (.move a mv true :: es)).length = (acceptedAll es).length + 1 := by
        simp [acceptedAll]
      simp only [e1] at this
      rw [e2, ← ih]; omega
    · have e1 : ∀ b, acceptedBy b (e :: es) = acceptedBy b es := by
        intro b
        cases e with
        | move a mv v => cases v with
          | true => exact absurd ⟨a, mv, rfl⟩ he
          | false => rfl
        | _ => rfl
      have e2 : acceptedAll (e :: es) = acceptedAll es := by
        cases e with
        | move a mv v => cases v with
          | true => exact absurd ⟨a, mv, rfl⟩ he
          | false => rfl
        | _ => rfl
      simp only [e1, e2, ih]

theorem from_game {p : PartialPosition} {l : List Move} {Q : Position} (h : Position.From p l Q) :
    Game.From p l Q.inner := by
  have step : ∀ {Q R : Position} {m : Move} {l : List Move} {v : Option Unit}, m.Valid →
      Q.make_move m = .ok (R, v) → Game.From p l Q.inner →
      Game.From p (if v.isSome then l ++ [m] else l) R.inner := by
    intro Q R m l v hm e h
    rw [position_make_move] at e
    cases e' : Q.inner.make_move m with
    | ok x =>
      obtain ⟨q, r⟩ := x
      rw [e'] at e
      obtain ⟨e1, e2⟩ := Prod.mk.inj (Res.ok.inj e)
      subst e2
      rw [← e1]
      cases r with
      | none => exact .reject h hm e'
      | some u => exact .accept h hm e'
    | panic => rw [e'] at e; cases e
    | ub => rw [e'] at e; cases e
  induction h with
  | start => exact .start
  | make_move h hm e ih => exact step hm e ih
  | @make_compact_move l Q R m c v h hm hc e ih =>
    rw [C34_compact_position Q m hm c hc] at e
    cases e2 : Q.make_move m with
    | ok x =>
      obtain ⟨R', w⟩ := x
      rw [e2] at e
      obtain ⟨e3, e4⟩ := Prod.mk.inj (Res.ok.inj e)
      subst e3 e4
      exact step hm e2 ih
    | panic => rw [e2] at e; cases e
    | ub => rw [e2] at e; cases e

omit P in
theorem sum_le_sum {l : List Nat} {f g : Nat → Nat} (h : ∀ a, f a ≤ g a) :
    (l.map f).sum ≤ (l.map g).sum := by
  induction l with
  | nil => simp
  | cons x l ih => simp only [List.map_cons, List.sum_cons]; have := h x; omega

omit P in
theorem sum_mul_left {l : List Nat} {f : Nat → Nat} (z : Nat) :
    (l.map fun a => z * f a).sum = z * (l.map f).sum := by
  induction l with
  | nil => simp
  | cons x l ih => simp only [List.map_cons, List.sum_cons, ih, Nat.mul_add]

omit P in
theorem le_sum {l : List Nat} {f : Nat → Nat} {a : Nat} (h : a ∈ l) : f a ≤ (l.map f).sum := by
  induction l with
  | nil => simp at h
  | cons x l ih =>
    simp only [List.map_cons, List.sum_cons]
    rcases List.mem_cons.1 h with rfl | h
    · omega
    · have := ih h; omega

/-- C71: whatever the growth of `Vec`, all moves ever accepted through all handles take their bytes
out of the arena for good.  A `Move` has a variant with three one-byte fields, so no program ever
gets more than 43690 moves accepted; and so the move number of a boxed position never wraps: it is
one more than the number of moves accepted. -/
theorem C71_any_growth {L M : Layout} (hL : 0 < L.size.toNat) {grow : Nat → Nat}
    (hg : ∀ c, c < grow c) {es : List BoxEvent} {s : RecState} (r : RecRun L M grow es s)
    (hv : ∀ e ∈ es, e.Valid) :
    (created es).length * L.size.toNat + M.size.toNat * (acceptedAll es).length ≤ 128 * 1024 ∧
    (3 ≤ M.size.toNat → (acceptedAll es).length ≤ 43690 ∧
      ∀ a p, s.objs a = some p → p.pos.get_inner.get_ply.toNat = (acceptedBy a es).length + 1) := by
  have cost := C71_cost hL r hv
  have rb := C71_refines r
  have bi := box_inv hL rb hv
  have hsum := accepted_sum (C69_handles hL rb hv).2.1 es (by
    intro a mv hm
    rw [mem_created]
    refine Classical.byContradiction fun hc => (bi.named a hc).1 mv true hm)
  have h1 : M.size.toNat * (acceptedAll es).length ≤ recorded grow M.size.toNat es (created es) := by
    rw [← hsum, ← sum_mul_left]
    refine sum_le_sum fun a => Nat.mul_le_mul_left _ ?_
    have := room_le hg (acceptedBy a es).length
    omega
  refine ⟨by omega, fun hz => ?_⟩
  have h2 := Nat.mul_le_mul_right (acceptedAll es).length hz
  refine ⟨by omega, fun a p hp => ?_⟩
  have hb : s.boxes.objs a = some p.pos := by simp only [RecState.boxes, hp]; rfl
  obtain ⟨p0, e0, hf⟩ := bi.value a _ hb
  have hbk := (C32_bookkeeping p0 _ _ (.startpos e0) (from_game hf)).2
  have hcr : a ∈ created es := mem_created.2 ((bi.live a).1 (by rw [hb]; rfl)).1
  have h3 := le_sum (f := fun a => (acceptedBy a es).length) hcr
  rw [hsum] at h3
  have h4 : p0.get_ply.toNat = 1 := by
    rw [startpos_ok] at e0
    rw [← Res.ok.inj e0]
    decide +kernel
  rw [h4] at hbk
  show p.pos.inner.get_ply.toNat = _
  omega

/-- C71: with doubling buffers, no handle ever gets more than 16384 moves accepted; if a `Move`
takes 4 bytes or more, not more than 8192. -/
theorem C71_doubling {L M : Layout} (hL : 16 < L.size.toNat) {es : List BoxEvent} {s : RecState}
    (r : RecRun L M doubling es s) (hv : ∀ e ∈ es, e.Valid) (a : Nat) :
    (3 ≤ M.size.toNat → (acceptedBy a es).length ≤ 16384) ∧
    (4 ≤ M.size.toNat → (acceptedBy a es).length ≤ 8192) := by
  have hL0 : 0 < L.size.toNat := by omega
  have cost := C71_cost hL0 r hv
  have bi := box_inv hL0 (C71_refines r) hv
  by_cases hc : a ∈ created es
  · have h1 := le_sum (f := fun a => M.size.toNat * (room doubling (acceptedBy a es).length).2) hc
    have h2 : L.size.toNat ≤ (created es).length * L.size.toNat :=
      Nat.le_mul_of_pos_left _ (List.length_pos_of_mem hc)
    have h3 : L.size.toNat + M.size.toNat * (room doubling (acceptedBy a es).length).2 ≤ 131072 := by
      unfold recorded at cost; omega
    generalize (acceptedBy a es).length = n at *
    by_cases hn : n = 0
    · omega
    · obtain ⟨k, k1, k2, _⟩ := room_doubling n (by omega)
      have k3 := (room_le doubling_lt n).1
      rw [k1] at k3
      rw [k2] at h3
      constructor
      · intro hz
        have := Nat.mul_le_mul_right (2 * (4 * 2 ^ k) - 4) hz
        have hk : k ≤ 12 := Nat.le_of_not_lt fun hk => by
          have : 2 ^ 13 ≤ 2 ^ k := Nat.pow_le_pow_right (by omega) hk
          omega
        have : 2 ^ k ≤ 2 ^ 12 := Nat.pow_le_pow_right (by omega) hk
        omega
      · intro hz
        have := Nat.mul_le_mul_right (2 * (4 * 2 ^ k) - 4) hz
        have hk : k ≤ 11 := Nat.le_of_not_lt fun hk => by
          have : 2 ^ 12 ≤ 2 ^ k := Nat.pow_le_pow_right (by omega) hk
          omega
        have : 2 ^ k ≤ 2 ^ 11 := Nat.pow_le_pow_right (by omega) hk
        omega
  · rw [mem_created] at hc
    rw [accepted_none (bi.named a hc).1]
    simp

/-! ### Reaching the bound -/

theorem solo_rec {L M : Layout} {grow : Nat → Nat} {es : List BoxEvent} {u v : List Nat}
    {o : Nat → Option Recorder} {i : Nat} {s t : AllocState}
    (r : RecRun L M grow es ⟨s, u, v, o⟩) (h : AllocSolo i s t) :
    RecRun L M grow es ⟨t, u, v, o⟩ := by
  induction h with
  | refl => exact r
  | step hi rem pc _ st ih =>
    have := RecRun.step ih (.alloc (.step _ _ hi rem pc st))
    simpa using this

/-- A call of `alloc` that runs without interruption. -/
theorem rec_alloc {L M : Layout} {grow : Nat → Nat} {es : List BoxEvent} {s : RecState}
    (r : RecRun L M grow es s) (hr : AllocReachable s.alloc) (l : Layout) (hl : l.Valid)
    (ha : l.align.toNat ≤ 4096) (hs : l.size.toNat ≤ s.alloc.remaining.toNat) :
    ∃ t o, RecRun L M grow es { s with alloc := t } ∧ AllocReachable t ∧
      t.calls[s.alloc.calls.length]? = some ⟨l, .done (some o)⟩ ∧ t.remaining = o ∧
      o.toNat + l.size.toNat ≤ s.alloc.remaining.toNat ∧
      s.alloc.remaining.toNat < o.toNat + l.size.toNat + l.align.toNat := by
  have r1 : RecRun L M grow es
      ⟨{ s.alloc with calls := s.alloc.calls ++ [⟨l, .start⟩] }, s.used, s.bufs, s.objs⟩ := by
    simpa using RecRun.step r (.alloc (.call s.alloc l))
  obtain ⟨t, ht, hc⟩ := C49_solo (s := s.alloc) l hl
  rcases hc with ⟨_, _, a, ⟨o, ho, rfl⟩, h6, h7, h8⟩ | ⟨hc, _⟩
  · exact ⟨t, o, solo_rec r1 ht, solo_reachable (.trans hr (.call _ _)) ht, ho,
      BitVec.eq_of_toNat_eq h6, h7, h8⟩
  · omega

/-- C71: the bound of `C71_cost` is exact: every game whose record fits can be recorded (by a
program that does nothing else with the arena). -/
theorem C71_reached {L M : Layout} (hL : 0 < L.size.toNat) (hv : L.Valid)
    (ha : L.align.toNat ≤ 4096) (hm : L.size.toNat % L.align.toNat = 0) (hM : M.align = 1)
    {grow : Nat → Nat} {p q : PartialPosition} {l : List Move} (hp : startpos = .ok p)
    (h : Game.From p l q) (hs : L.size.toNat + M.size.toNat * (room grow l.length).2 ≤ 128 * 1024) :
    ∃ a es s r, RecRun L M grow es s ∧ (∀ e ∈ es, e.Valid) ∧ created es = [a] ∧
      acceptedBy a es = l ∧ s.objs a = some r ∧ r.pos.get_moves = l ∧ r.pos.get_inner = q := by
  suffices ∃ a es s r, RecRun L M grow es s ∧ (∀ e ∈ es, e.Valid) ∧ created es = [a] ∧
      acceptedBy a es = l ∧ s.objs a = some r ∧ r.pos.moves = l ∧ r.pos.inner = q ∧
      AllocReachable s.alloc ∧ s.alloc.remaining.toNat + L.size.toNat +
        M.size.toNat * (room grow l.length).2 = 131072 ∧
      (∀ i, i ∈ s.used ∨ i ∈ s.bufs → i < s.alloc.calls.length) by
    obtain ⟨a, es, s, r, h1, h2, h3, h4, h5, h6, h7, _⟩ := this
    exact ⟨a, es, s, r, h1, h2, h3, h4, h5, h6, h7⟩
  induction h with
  | start =>
    obtain ⟨t, o, r1, hr, hc, hrem, h1, h2⟩ :=
      rec_alloc (L := L) (M := M) (grow := grow) .init .init L hv ha (by
        rw [show RecState.init.alloc.remaining.toNat = 131072 from arena_toNat]
        omega)
    have h0 : RecState.init.alloc.remaining.toNat = 131072 := arena_toNat
    rw [h0] at h1 h2
    obtain ⟨k, hk⟩ := hv
    have hoff := C50_offset hr ⟨k, hk⟩ ⟨o, hc, rfl⟩
    have hk12 : k ≤ 12 := Nat.le_of_not_lt fun hk' => by
      have : 2 ^ 13 ≤ 2 ^ k := Nat.pow_le_pow_right (by omega) hk'
      omega
    have hd : 131072 % L.align.toNat = 0 := by
      rw [hk, show 131072 = 2 ^ 17 from rfl, show 17 = k + (17 - k) by omega, Nat.pow_add]
      exact Nat.mul_mod_right _ _
    have hz : o.toNat + L.size.toNat = 131072 := by
      have e1 := Nat.dvd_of_mod_eq_zero hd
      have e2 := Nat.dvd_add (Nat.dvd_of_mod_eq_zero hoff) (Nat.dvd_of_mod_eq_zero hm)
      have e3 := Nat.dvd_sub e1 e2
      have := Nat.eq_zero_of_dvd_of_lt e3 (by omega)
      omega
    have hpp : Position.startpos = .ok (Position.arbitrary_position p) := by
      rw [Position.startpos, hp]; rfl
    have r2 := RecRun.step r1 (.create hc (by simp [RecState.init]) (by simp [RecState.init]) hpp)
    have hlen : RecState.init.alloc.calls.length < t.calls.length := (List.getElem?_eq_some_iff.1 hc).1
    refine ⟨o.toNat, _, _, ⟨Position.arbitrary_position p, 0⟩, r2, ?_, rfl, rfl, ?_, ?_, ?_, hr, ?_, ?_⟩
    · simp [BoxEvent.Valid]
    · simp [RecState.set]
    · rw [Position.arbitrary_position]
    · rw [Position.arbitrary_position]
    · simp only [RecState.set, room, hrem, List.length_nil]; omega
    · intro i hi
      simp only [RecState.set, RecState.init, List.nil_append, List.mem_singleton, List.not_mem_nil,
        or_false] at hi ⊢
      subst hi; exact hlen
  | @accept l q r m hf hmv e ih =>
    have hmono : (room grow l.length).2 ≤ (room grow (l ++ [m]).length).2 := by
      rw [List.length_append, List.length_singleton]
      simp only [room]; split <;> simp
    have hmono' := Nat.mul_le_mul_left M.size.toNat hmono
    obtain ⟨a, es, s, rc, h1, h2, h3, h4, h5, h6, h7, h8, h9, h10⟩ := ih (by omega)
    obtain ⟨c, hc, henc⟩ := CompactMove.ofMove_ok hmv
    have hstep : rc.pos.make_compact_move c =
        .ok ({ rc.pos with inner := r, moves := rc.pos.moves ++ [m] }, true) := by
      rw [C34_compact_position _ _ hmv c hc, position_make_move, h7, e]; rfl
    have hev : ∀ x ∈ es ++ [.move a m true], x.Valid := by
      intro x hx
      rcases List.mem_append.1 hx with hx | hx
      · exact h2 x hx
      · simp only [List.mem_singleton] at hx; subst hx; exact hmv
    have hcap := (rec_inv hL h1 h2).cap a rc h5
    rw [h6] at hcap
    by_cases hfull : l.length = rc.cap
    · have hroom : room grow (l ++ [m]).length = (grow rc.cap, (room grow l.length).2 + grow rc.cap) := by
        rw [List.length_append, List.length_singleton]
        simp only [room]
        rw [← hcap, if_pos hfull]
      rw [hroom] at hs ⊢
      simp only [Nat.mul_add] at hs ⊢
      have hsz : grow rc.cap * M.size.toNat < 2 ^ (Profile.bits - 1) := by
        refine Nat.lt_of_lt_of_le (m := 2 ^ 31) ?_ half_bits
        rw [Nat.mul_comm]; omega
      have hM1 : (M.array (grow rc.cap)).align.toNat = 1 := by 
        simp only [Layout.array, hM]; exact one_toNat
      have hasz := array_size hsz
      obtain ⟨t, o, r1, hr, hcl, hrem, g1, g2⟩ := rec_alloc h1 h8 (M.array (grow rc.cap)) ⟨0, hM1⟩
        (by omega) (by rw [hasz, Nat.mul_comm]; omega)
      rw [hasz, Nat.mul_comm] at g1 g2
      rw [hM1] at g2
      have hlen : s.alloc.calls.length < t.calls.length := (List.getElem?_eq_some_iff.1 hcl).1
      have r2 := RecRun.step r1 (.grow (a := a) (r := rc) h5 hc hstep (by rw [h6]; exact hfull) hsz hcl
        (fun hi => absurd (h10 _ (.inl hi)) (by omega)) (fun hi => absurd (h10 _ (.inr hi)) (by omega)))
      refine ⟨a, _, _, ⟨{ rc.pos with inner := r, moves := rc.pos.moves ++ [m] }, grow rc.cap⟩, r2, hev, ?_, ?_, ?_,
        ?_, rfl, hr, ?_, ?_⟩
      · rw [Option.toList_some, created_skip _ _ (by simp), h3]
      · rw [Option.toList_some, acceptedBy_step, if_pos rfl, h4]
      · simp only [RecState.set, if_true]
      · simp only [h6]
      · simp only [RecState.set, hrem]; omega
      · intro i hi
        simp only [RecState.set, List.mem_append, List.mem_singleton] at hi ⊢
        rcases hi with hi | hi | rfl
        · exact Nat.lt_trans (h10 i (.inl hi)) hlen
        · exact Nat.lt_trans (h10 i (.inr hi)) hlen
        · exact hlen
    · have hroom : room grow (l ++ [m]).length = room grow l.length := by
        rw [List.length_append, List.length_singleton]
        simp only [room]
        rw [← hcap, if_neg hfull, hcap]
      have r2 := RecRun.step h1 (.move (a := a) (r := rc) h5 hc hstep (fun _ => by rw [h6]; exact hfull))
      refine ⟨a, _, _, ⟨{ rc.pos with inner := r, moves := rc.pos.moves ++ [m] }, rc.cap⟩, r2, hev, ?_, ?_, ?_,
        ?_, rfl, h8, ?_, ?_⟩
      · rw [Option.toList_some, created_skip _ _ (by simp), h3]
      · rw [Option.toList_some, acceptedBy_step, if_pos rfl, h4]
      · simp only [RecState.set, if_true]
      · simp only [h6]
      · rw [hroom]; exact h9
      · exact h10
  | @reject l q r m hf hmv e ih =>
    obtain ⟨a, es, s, rc, h1, h2, h3, h4, h5, h6, h7, h8⟩ := ih hs
    have : r = q := by
      rcases make_move_ok (reach_ok (from_reach (.startpos hp) hf)) hmv with ⟨_, q', e', _⟩ | ⟨_, e'⟩
      · rw [e'] at e; cases e
      · rw [e'] at e; cases e; rfl
    exact ⟨a, es, s, rc, h1, h2, h3, h4, h5, h6, this ▸ h7, h8⟩

/-- C71: with doubling buffers and moves of three bytes the longest games recorded have exactly
16384 moves: there is such a run, and by `C71_doubling` none with a longer game. -/
theorem C71_longest : ∃ a es s r, RecRun ⟨760, 8⟩ ⟨3, 1⟩ doubling es s ∧ (∀ e ∈ es, e.Valid) ∧
    s.objs a = some r ∧ r.pos.get_moves.length = 16384 := by
  obtain ⟨p, l, q, hp, hl, h⟩ := long_game 4095
  obtain ⟨k, k1, k2, k3⟩ := room_doubling 16384 (by omega)
  have k4 := (room_le doubling_lt 16384).1
  have hk : k ≤ 12 := Nat.le_of_not_lt fun hk => by
    have : 2 ^ 13 ≤ 2 ^ k := Nat.pow_le_pow_right (by omega) hk
    have := k3 (by omega)
    omega
  have h12 : 2 ^ k ≤ 2 ^ 12 := Nat.pow_le_pow_right (by omega) hk
  have hl' : l.length = 16384 := hl
  have e1 : (⟨760, 8⟩ : Layout).size.toNat = 760 := usize_toNat (by decide)
  have e2 : (⟨760, 8⟩ : Layout).align.toNat = 8 := usize_toNat (by decide)
  have e3 : (⟨3, 1⟩ : Layout).size.toNat = 3 := usize_toNat (by decide)
  obtain ⟨a, es, s, r, h1, h2, _, _, h5, h6, _⟩ := C71_reached (L := ⟨760, 8⟩) (M := ⟨3, 1⟩)
    (grow := doubling) (by rw [e1]; decide) ⟨3, e2⟩ (by rw [e2]; decide) (by rw [e1, e2]) rfl hp h (by
      rw [hl', k2, e1, e3]
      omega)
  exact ⟨a, es, s, r, h1, h2, h5, by rw [h6, hl']⟩

/-- The figures for a short game: the buffer grows at moves 1, 5 and 9. -/
example : room doubling 4 = (4, 4) ∧ room doubling 8 = (8, 12) ∧ room doubling 9 = (16, 28) := by
  decide

end ShogiCore
