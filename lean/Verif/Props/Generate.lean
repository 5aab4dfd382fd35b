import Verif.Spec.Generate
import Verif.Props.Legality
import Verif.Props.Decode
import Verif.Props.Hand
import Verif.Props.Piece
import Verif.Props.Machine
import Verif.Props.Rules

/- C83: generating moves with the methods of a `LegalityChecker`. -/

set_option linter.unusedSectionVars false

namespace ShogiCore
open PartialPosition

/-- A list of moves is right for a condition. -/
private def Finds {β : Type} (r : Res (List β)) (Q : β → Prop) : Prop :=
  ∃ l, r = .ok l ∧ l.Nodup ∧ ∀ m, m ∈ l ↔ Q m

private theorem Finds.congr {β : Type} {r : Res (List β)} {Q Q' : β → Prop} (h : Finds r Q) (e : ∀ m, Q m ↔ Q' m) :
    Finds r Q' := by
  obtain ⟨l, h1, h2, h3⟩ := h
  exact ⟨l, h1, h2, fun m => (h3 m).trans (e m)⟩

private theorem gather_finds {α β : Type} {f : α → Res (List β)} {Q : α → β → Prop} :
    ∀ {l : List α}, l.Nodup → (∀ a ∈ l, Finds (f a) (Q a)) →
      (∀ a ∈ l, ∀ a' ∈ l, ∀ m, Q a m → Q a' m → a = a') →
      Finds (gather l f) fun m => ∃ a ∈ l, Q a m
  | [], _, _, _ => ⟨[], rfl, .nil, by simp⟩
  | a :: l, hn, h, hd => by
    obtain ⟨hn1, hn2⟩ := List.nodup_cons.1 hn
    obtain ⟨r, h1, h2, h3⟩ := h a (by simp)
    obtain ⟨k, h4, h5, h6⟩ := gather_finds hn2 (fun b hb => h b (by simp [hb]))
      (fun b hb b' hb' => hd b (by simp [hb]) b' (by simp [hb']))
    refine ⟨r ++ k, ?_, ?_, fun m => ?_⟩
    · unfold gather at h4 ⊢
      rw [List.mapM_cons, h1, Res.bind_ok]
      cases e : l.mapM f with
      | ok ls =>
        rw [e] at h4
        rw [Res.bind_ok] at h4
        rw [Res.bind_ok]
        cases h4; rfl
      | panic => rw [e] at h4; cases h4
      | ub => rw [e] at h4; cases h4
    · refine List.nodup_append.2 ⟨h2, h5, fun m hm m' hm' e => ?_⟩
      subst e
      obtain ⟨b, hb, hq⟩ := (h6 m).1 hm'
      have := hd a (by simp) b (by simp [hb]) m ((h3 m).1 hm) hq
      exact hn1 (this ▸ hb)
    · rw [List.mem_append, h3, h6]
      simp

private theorem append_finds {β : Type} {r r' : Res (List β)} {Q Q' : β → Prop} (h : Finds r Q) (h' : Finds r' Q')
    (d : ∀ m, Q m → ¬Q' m) : Finds (r >>= fun l => r' >>= fun l' => pure (l ++ l')) fun m => Q m ∨ Q' m := by
  obtain ⟨l, h1, h2, h3⟩ := h
  obtain ⟨l', h1', h2', h3'⟩ := h'
  refine ⟨l ++ l', by rw [h1, h1']; rfl, ?_, fun m => by rw [List.mem_append, h3, h3']⟩
  refine List.nodup_append.2 ⟨h2, h2', ?_⟩
  rintro m hm m' hm' rfl
  exact d m ((h3 m).1 hm) ((h3' m).1 hm')

variable [P : Profile]

open Classical in
private theorem visit_finds {b : Bitboard} (hb : b.Canonical) : Finds b.visit fun s => s.Valid ∧ b.Mem s := by
  have e := Bitboard.iterate_filter hb (fun s => decide (b.Mem s)) fun s _ => by simp
  refine ⟨_, by unfold Bitboard.visit; rw [e]; rfl, ?_, fun s => ?_⟩
  · exact List.Pairwise.filter _ (by decide +kernel : allSquares.Nodup)
  · rw [List.mem_filter, allSquares_valid]; simp

private theorem squares_finds : Finds Square.all Square.Valid := by
  obtain ⟨l, h1, h2, h3, _⟩ := C02_all
  exact ⟨l, h1, h3, h2⟩

/-- A loop over what a call found. -/
private theorem loop_finds {α β : Type} {r : Res (List α)} {f : α → Res (List β)} {V : α → Prop} {Q : α → β → Prop}
    (hr : Finds r V) (h : ∀ a, V a → Finds (f a) (Q a)) (hd : ∀ a a' m, V a → V a' → Q a m → Q a' m → a = a') :
    Finds (r >>= fun l => gather l f) fun m => ∃ a, V a ∧ Q a m := by
  obtain ⟨l, h1, h2, h3⟩ := hr
  rw [h1, Res.bind_ok]
  refine (gather_finds h2 (fun a ha => h a ((h3 a).1 ha))
    (fun a ha a' ha' m => hd a a' m ((h3 a).1 ha) ((h3 a').1 ha'))).congr fun m => ?_
  simp only [h3]

variable {L : LegalityChecker}

private theorem keep_finds {p : PartialPosition} {m : Move} (h : ∃ b, L.is_legal_partial_lite p m = .ok b) :
    Finds (L.keep p m) fun m' => m' = m ∧ L.is_legal_partial_lite p m = .ok true := by
  obtain ⟨b, hb⟩ := h
  unfold LegalityChecker.keep
  rw [hb, Res.bind_ok]
  cases b
  · exact ⟨[], rfl, .nil, by simp⟩
  · exact ⟨[m], rfl, by simp, by simp⟩

private theorem both_finds (hL : L.Documented) {p : PartialPosition} (hp : ApiReach p) {s t : Square} (hs : s.Valid)
    (ht : t.Valid) : Finds (gather [false, true] fun promote => L.keep p (.Normal s t promote)) fun m =>
      ∃ promote, m = .Normal s t promote ∧ L.is_legal_partial_lite p m = .ok true := by
  refine (gather_finds (by decide) (fun b _ => keep_finds (hL.total p (.Normal s t b) hp ⟨hs, ht⟩)) ?_).congr fun m => ?_
  · rintro a _ a' _ m ⟨rfl, _⟩ ⟨e, _⟩; cases e; rfl
  · constructor
    · rintro ⟨b, _, rfl, h⟩; exact ⟨b, rfl, h⟩
    · rintro ⟨b, rfl, h⟩; exact ⟨b, by cases b <;> simp, rfl, h⟩

private theorem hand_finds : Finds Hand.all_hand_pieces PieceKind.InHand := by
  obtain ⟨_, l, h1, h2, h3, _⟩ := C09_hand_pieces
  exact ⟨l, h1, h3, h2⟩

/-- What is legal is an own piece's move or a drop from the own hand. -/
private theorem legal_shape (hL : L.Documented) {p : PartialPosition} (hp : ApiReach p) {m : Move} (hm : m.Valid)
    (h : L.is_legal_partial_lite p m = .ok true) : p.Acceptable m :=
  (C28_accept_iff p hp m hm).1.2 (hL.succeeds p m hp hm h)

private theorem drops_finds (hL : L.Documented) {p : PartialPosition} (hp : ApiReach p) :
    Finds (Hand.all_hand_pieces >>= fun l => gather l fun k => do
      let x ← Piece.new k p.side_to_move
      gather (← (← L.drop_candidates p x).visit) fun t => .ok [.Drop x t])
    fun m => ∃ k, k.InHand ∧ ∃ t : Square, t.Valid ∧ m = .Drop (Piece.mk' k p.side_to_move) t ∧
      L.is_legal_partial_lite p m = .ok true := by
  refine loop_finds hand_finds (fun k _ => ?_) ?_
  · rw [Piece.new_ok, Res.bind_ok]
    obtain ⟨B, h1, h2, h3⟩ := hL.drops p (Piece.mk' k p.side_to_move) hp (Piece.mk'_valid _ _)
    rw [h1, Res.bind_ok]
    refine (loop_finds (Q := fun t m => m = .Drop (Piece.mk' k p.side_to_move) t) (visit_finds h2)
      (fun t _ => ⟨_, rfl, by simp, by simp⟩) ?_).congr fun m => ?_
    · rintro a a' m _ _ rfl ⟨⟩; rfl
    · constructor
      · rintro ⟨t, ⟨ht, h⟩, rfl⟩; exact ⟨t, ht, rfl, (h3 t ht).1 h⟩
      · rintro ⟨t, ht, rfl, h⟩; exact ⟨t, ⟨ht, (h3 t ht).2 h⟩, rfl⟩
  · rintro k k' m _ _ ⟨t, _, rfl, _⟩ ⟨t', _, e, _⟩
    exact (Piece.mk'_inj (Move.Drop.inj e).1).1

/-- C83: going through the own pieces and the pieces in hand yields every legal move exactly once. -/
theorem C83_from (L : LegalityChecker) (hL : L.Documented) (p : PartialPosition) (hp : ApiReach p) :
    ∃ l, L.generateFrom p = .ok l ∧ l.Nodup ∧
      ∀ m, m ∈ l ↔ m.Valid ∧ L.is_legal_partial_lite p m = .ok true := by
  obtain ⟨B, hB, -⟩ := (C25_bitboards p hp (Square.at 1 1) (by decide)).2.1 p.side_to_move
  have hc := (C25_canonical p hp).2.1 _ B hB
  have hm : ∀ s : Square, s.Valid → (B.Mem s ↔ ∃ k, p.piece_at s = .ok (some (Piece.mk' k p.side_to_move))) := by
    intro s hs
    obtain ⟨B', hB', h⟩ := (C25_bitboards p hp s hs).2.1 p.side_to_move
    rw [hB] at hB'; cases hB'
    exact h
  have h1 : Finds (B.visit >>= fun l => gather l fun s => do
      gather (← (← L.normal_from_candidates p s).visit) fun t =>
        gather [false, true] fun promote => L.keep p (.Normal s t promote))
      fun m => ∃ s, (s.Valid ∧ B.Mem s) ∧ ∃ t : Square, t.Valid ∧ ∃ promote, m = .Normal s t promote ∧
        L.is_legal_partial_lite p m = .ok true := by
    refine loop_finds (visit_finds hc) (fun s hs => ?_) ?_
    · obtain ⟨C, h1, h2, h3⟩ := hL.sources p s hp hs.1
      rw [h1, Res.bind_ok]
      refine (loop_finds (visit_finds h2) (fun t ht => both_finds hL hp hs.1 ht.1) ?_).congr fun m => ?_
      · rintro a a' m _ _ ⟨b, rfl, _⟩ ⟨b', e, _⟩; cases e; rfl
      · constructor
        · rintro ⟨t, ⟨ht, _⟩, h⟩; exact ⟨t, ht, h⟩
        · rintro ⟨t, ht, b, rfl, h⟩; exact ⟨t, ⟨ht, (h3 t ht).2 ⟨b, h⟩⟩, b, rfl, h⟩
    · rintro a a' m _ _ ⟨t, _, b, rfl, _⟩ ⟨t', _, b', e, _⟩; cases e; rfl
  have := append_finds h1 (drops_finds hL hp) (by
    rintro m ⟨s, _, t, _, b, rfl, _⟩ ⟨k, _, t', _, e, _⟩; cases e)
  unfold LegalityChecker.generateFrom
  rw [hB, Res.bind_ok]
  refine Finds.congr (by simpa only [bind_assoc] using this) fun m => ?_
  constructor
  · rintro (⟨s, ⟨hs, _⟩, t, ht, b, rfl, h⟩ | ⟨k, _, t, ht, rfl, h⟩)
    · exact ⟨⟨hs, ht⟩, h⟩
    · exact ⟨⟨Piece.mk'_valid _ _, ht⟩, h⟩
  · rintro ⟨hv, h⟩
    have ha := legal_shape hL hp hv h
    cases m with
    | Normal s t b =>
      obtain ⟨k, e, _⟩ := ha
      exact .inl ⟨s, ⟨hv.1, (hm s hv.1).2 ⟨k, e⟩⟩, t, hv.2, b, rfl, h⟩
    | Drop x t =>
      obtain ⟨k, n, rfl, hk, _⟩ := ha
      exact .inr ⟨k, hk, t, hv.2, rfl, h⟩

private theorem kinds_finds : Finds (.ok PieceKind.all) fun _ => True :=
  ⟨_, rfl, by decide, fun k => by simp [mem_all_kinds]⟩

/-- C83: going through the squares and what can get there yields every legal move exactly once. -/
theorem C83_to (L : LegalityChecker) (hL : L.Documented) (p : PartialPosition) (hp : ApiReach p) :
    ∃ l, L.generateTo p = .ok l ∧ l.Nodup ∧
      ∀ m, m ∈ l ↔ m.Valid ∧ L.is_legal_partial_lite p m = .ok true := by
  have normal : ∀ t : Square, t.Valid → Finds (gather PieceKind.all fun k => do
      let x ← Piece.new k p.side_to_move
      gather (← (← L.normal_to_candidates p t x).visit) fun s =>
        gather [false, true] fun promote => L.keep p (.Normal s t promote))
      fun m => ∃ k, True ∧ ∃ s : Square, (s.Valid ∧ p.piece_at s = .ok (some (Piece.mk' k p.side_to_move))) ∧
        ∃ b, m = .Normal s t b ∧ L.is_legal_partial_lite p m = .ok true := by
    intro t ht
    have := loop_finds (f := fun k => do
      let x ← Piece.new k p.side_to_move
      gather (← (← L.normal_to_candidates p t x).visit) fun s =>
        gather [false, true] fun promote => L.keep p (.Normal s t promote))
      (Q := fun k m => ∃ s : Square, (s.Valid ∧ p.piece_at s = .ok (some (Piece.mk' k p.side_to_move))) ∧
        ∃ b, m = .Normal s t b ∧ L.is_legal_partial_lite p m = .ok true) kinds_finds (fun k _ => ?_) ?_
    · exact this
    · rw [Piece.new_ok, Res.bind_ok]
      obtain ⟨C, h1, h2, h3⟩ := hL.targets p t (Piece.mk' k p.side_to_move) hp ht (Piece.mk'_valid _ _)
      rw [h1, Res.bind_ok]
      refine (loop_finds (visit_finds h2) (fun s hs => both_finds hL hp hs.1 ht) ?_).congr fun m => ?_
      · rintro a a' m _ _ ⟨b, rfl, _⟩ ⟨b', e, _⟩; cases e; rfl
      · constructor
        · rintro ⟨s, ⟨hs, hm⟩, h⟩; exact ⟨s, ⟨hs, ((h3 s hs).1 hm).1⟩, h⟩
        · rintro ⟨s, ⟨hs, e⟩, b, rfl, h⟩; exact ⟨s, ⟨hs, (h3 s hs).2 ⟨e, b, h⟩⟩, b, rfl, h⟩
    · rintro k k' m _ _ ⟨s, ⟨_, e1⟩, b, rfl, _⟩ ⟨s', ⟨_, e2⟩, b', e, _⟩
      cases e
      rw [e1] at e2
      exact (Piece.mk'_inj (Option.some.inj (Res.ok.inj e2))).1
  have drops : ∀ t : Square, t.Valid → Finds (Hand.all_hand_pieces >>= fun l => gather l fun k => do
      L.keep p (.Drop (← Piece.new k p.side_to_move) t))
      fun m => ∃ k, k.InHand ∧ m = .Drop (Piece.mk' k p.side_to_move) t ∧ L.is_legal_partial_lite p m = .ok true := by
    intro t ht
    refine (loop_finds (Q := fun k m => m = .Drop (Piece.mk' k p.side_to_move) t ∧
      L.is_legal_partial_lite p m = .ok true) hand_finds (fun k _ => ?_) ?_)
    · rw [Piece.new_ok, Res.bind_ok]
      refine (keep_finds (hL.total p (.Drop (Piece.mk' k p.side_to_move) t) hp ⟨Piece.mk'_valid _ _, ht⟩)).congr fun m => ?_
      constructor
      · rintro ⟨rfl, h⟩; exact ⟨rfl, h⟩
      · rintro ⟨rfl, h⟩; exact ⟨rfl, h⟩
    · rintro k k' m _ _ ⟨rfl, _⟩ ⟨e, _⟩
      exact (Piece.mk'_inj (Move.Drop.inj e).1).1
  unfold LegalityChecker.generateTo
  refine (loop_finds squares_finds (fun t ht => append_finds (normal t ht) (drops t ht) ?_) ?_).congr fun m => ?_
  · rintro m ⟨k, _, s, _, b, rfl, _⟩ ⟨k, _, e, _⟩; cases e
  · rintro t t' m _ _ (⟨k, _, s, _, b, rfl, _⟩ | ⟨k, _, rfl, _⟩) (⟨k', _, s', _, b', e, _⟩ | ⟨k', _, e, _⟩)
    · cases e; rfl
    · cases e
    · cases e
    · exact (Move.Drop.inj e).2
  · constructor
    · rintro ⟨t, ht, ⟨k, _, s, ⟨hs, _⟩, b, rfl, h⟩ | ⟨k, _, rfl, h⟩⟩
      · exact ⟨⟨hs, ht⟩, h⟩
      · exact ⟨⟨Piece.mk'_valid _ _, ht⟩, h⟩
    · rintro ⟨hv, h⟩
      have ha := legal_shape hL hp hv h
      cases m with
      | Normal s t b =>
        obtain ⟨k, e, _⟩ := ha
        exact ⟨t, hv.2, .inl ⟨k, trivial, s, ⟨hv.1, e⟩, b, rfl, h⟩⟩
      | Drop x t =>
        obtain ⟨k, n, rfl, hk, _⟩ := ha
        exact ⟨t, hv.2, .inr ⟨k, hk, rfl, h⟩⟩

/-- C83: all ways of enumerating moves agree. -/
theorem C83_agree (L : LegalityChecker) (hL : L.Documented) (p : PartialPosition) (hp : ApiReach p) :
    ∃ l l' l'', L.generateFrom p = .ok l ∧ L.generateTo p = .ok l' ∧ L.all_legal_moves_partial p = .ok l'' ∧
      l.Perm l' ∧ l.Perm l'' := by
  obtain ⟨l, e, h, hm⟩ := C83_from L hL p hp
  obtain ⟨l', e', h', hm'⟩ := C83_to L hL p hp
  obtain ⟨l'', e'', h'', hm''⟩ := hL.all p hp
  exact ⟨l, l', l'', e, e', e'', (List.perm_ext_iff_of_nodup h h').2 fun m => (hm m).trans (hm' m).symm,
    (List.perm_ext_iff_of_nodup h h'').2 fun m => (hm m).trans (hm'' m).symm⟩

/-- C83: there is no legal move if and only if all candidates are empty, which shows without trying
any move. -/
theorem C83_none (L : LegalityChecker) (hL : L.Documented) (p : PartialPosition) (hp : ApiReach p) :
    (∀ m : Move, m.Valid → L.is_legal_partial_lite p m = .ok false) ↔
      (∀ s : Square, s.Valid → ∃ B, L.normal_from_candidates p s = .ok B ∧ B.is_empty = true) ∧
      ∀ k, k.InHand → ∃ B, L.drop_candidates p (Piece.mk' k p.side_to_move) = .ok B ∧ B.is_empty = true := by
  have empty : ∀ B : Bitboard, B.Canonical → (B.is_empty = true ↔ ∀ s : Square, s.Valid → ¬B.Mem s) := by
    intro B hB
    constructor
    · intro h s hs
      have : B = Bitboard.empty := by
        cases B; simp only [Bitboard.is_empty, Bool.and_eq_true, beq_iff_eq] at h
        simp [Bitboard.empty, h]
      rw [this]; exact C15_empty s hs
    · intro h
      have : B = Bitboard.empty := Bitboard.ext_mem hB Bitboard.empty_canonical fun s hs =>
        ⟨fun hm => absurd hm (h s hs), fun hm => absurd hm (C15_empty s hs)⟩
      rw [this]; rfl
  constructor
  · intro h
    refine ⟨fun s hs => ?_, fun k hk => ?_⟩
    · obtain ⟨B, h1, h2, h3⟩ := hL.sources p s hp hs
      refine ⟨B, h1, (empty B h2).2 fun t ht hm => ?_⟩
      obtain ⟨b, e⟩ := (h3 t ht).1 hm
      rw [h (.Normal s t b) ⟨hs, ht⟩] at e; cases e
    · obtain ⟨B, h1, h2, h3⟩ := hL.drops p (Piece.mk' k p.side_to_move) hp (Piece.mk'_valid _ _)
      refine ⟨B, h1, (empty B h2).2 fun t ht hm => ?_⟩
      have e := (h3 t ht).1 hm
      rw [h (.Drop _ t) ⟨Piece.mk'_valid _ _, ht⟩] at e; cases e
  · rintro ⟨h1, h2⟩ m hm
    obtain ⟨b, hb⟩ := hL.total p m hp hm
    cases b with
    | false => exact hb
    | true =>
      exfalso
      have ha := legal_shape hL hp hm hb
      cases m with
      | Normal s t b =>
        obtain ⟨B, e, hB⟩ := h1 s hm.1
        obtain ⟨B', e', hc, h3⟩ := hL.sources p s hp hm.1
        rw [e] at e'; cases e'
        exact (empty B hc).1 hB t hm.2 ((h3 t hm.2).2 ⟨b, hb⟩)
      | Drop x t =>
        obtain ⟨k, n, rfl, hk, _⟩ := ha
        obtain ⟨B, e, hB⟩ := h2 k hk
        obtain ⟨B', e', hc, h3⟩ := hL.drops p _ hp hm.1
        rw [e] at e'; cases e'
        exact (empty B hc).1 hB t hm.2 ((h3 t hm.2).2 hb)

private theorem sum_lengths {α β : Type} {f : α → Res Nat} {g : α → List β} :
    ∀ {l : List α}, (∀ a ∈ l, f a = .ok (g a).length) →
      (l.mapM f >>= fun ns => pure ns.sum) = .ok (l.flatMap g).length
  | [], _ => rfl
  | a :: l, h => by
    have ih := sum_lengths (l := l) (g := g) fun b hb => h b (by simp [hb])
    rw [List.mapM_cons, h a (by simp), Res.bind_ok]
    cases e : l.mapM f with
    | ok ns =>
      rw [e, Res.bind_ok] at ih
      rw [List.flatMap_cons, List.length_append, ← Res.ok.inj ih]; rfl
    | panic => rw [e] at ih; cases ih
    | ub => rw [e] at ih; cases ih

/-- C83: counting by generating, making moves and recursing counts every line of legal moves of the
given length exactly once. -/
theorem C83_perft (L : LegalityChecker) (hL : L.Documented) (n : Nat) (p : PartialPosition) (hp : ApiReach p) :
    ∃ ls : List (List Move), L.perft n p = .ok ls.length ∧ ls.Nodup ∧
      ∀ l, l ∈ ls ↔ l.length = n ∧ ∃ q, L.Line p l q := by
  induction n generalizing p with
  | zero =>
    refine ⟨[[]], rfl, by simp, fun l => ?_⟩
    constructor
    · intro h; rw [List.mem_singleton.1 h]; exact ⟨rfl, p, .nil⟩
    · rintro ⟨h, _⟩; rw [List.length_eq_zero_iff.1 h]; simp
  | succ n ih =>
    obtain ⟨l, e, hn, hm⟩ := C83_from L hL p hp
    have step : ∀ m, m ∈ l → ∃ q, p.make_move m = .ok (q, some ()) ∧ ApiReach q := by
      intro m h
      obtain ⟨hv, hl⟩ := (hm m).1 h
      obtain ⟨q, e⟩ := hL.succeeds p m hp hv hl
      exact ⟨q, e, .step hp (.make_move hv e)⟩
    have : ∀ m, ∃ ls : List (List Move), m ∈ l → ∃ q, p.make_move m = .ok (q, some ()) ∧
        L.perft n q = .ok ls.length ∧ ls.Nodup ∧ ∀ l, l ∈ ls ↔ l.length = n ∧ ∃ r, L.Line q l r := by
      intro m
      by_cases h : m ∈ l
      · obtain ⟨q, e, hq⟩ := step m h
        obtain ⟨ls, h1, h2, h3⟩ := ih q hq
        exact ⟨ls, fun _ => ⟨q, e, h1, h2, h3⟩⟩
      · exact ⟨[], fun h' => absurd h' h⟩
    obtain ⟨g, hg⟩ := Classical.axiomOfChoice this
    refine ⟨l.flatMap fun m => (g m).map (m :: ·), ?_, ?_, fun k => ?_⟩
    · unfold LegalityChecker.perft
      rw [e, Res.bind_ok]
      refine sum_lengths fun m h => ?_
      obtain ⟨q, e, h1, _⟩ := hg m h
      rw [e, Res.bind_ok, List.length_map]; exact h1
    · have : ∀ k : List Move, k.Nodup → (∀ m ∈ k, m ∈ l) → (k.flatMap fun m => (g m).map (m :: ·)).Nodup := by
        intro k hk
        induction k with
        | nil => intro _; exact .nil
        | cons m k ihk =>
          intro hs
          obtain ⟨h1, h2⟩ := List.nodup_cons.1 hk
          rw [List.flatMap_cons]
          obtain ⟨q, _, _, hd, _⟩ := hg m (hs m (by simp))
          refine List.nodup_append.2 ⟨?_, ihk h2 fun m hm => hs m (by simp [hm]), ?_⟩
          · exact List.Pairwise.map _ (fun a b h e => h (List.cons.inj e).2) hd
          · rintro a ha b hb rfl
            obtain ⟨x, _, rfl⟩ := List.mem_map.1 ha
            obtain ⟨m', hm', hx⟩ := List.mem_flatMap.1 hb
            obtain ⟨y, _, e⟩ := List.mem_map.1 hx
            exact h1 ((List.cons.inj e).1 ▸ hm')
      exact this l hn fun m h => h
    · rw [List.mem_flatMap]
      constructor
      · rintro ⟨m, h, hk⟩
        obtain ⟨x, hx, rfl⟩ := List.mem_map.1 hk
        obtain ⟨q, e, _, _, h3⟩ := hg m h
        obtain ⟨hl, r, hr⟩ := (h3 x).1 hx
        exact ⟨by rw [List.length_cons, hl], r, .cons ((hm m).1 h).1 ((hm m).1 h).2 e hr⟩
      · rintro ⟨hl, r, hr⟩
        cases hr with
        | nil => cases hl
        | @cons _ m q k _ hv hleg e hr =>
          have h := (hm m).2 ⟨hv, hleg⟩
          obtain ⟨q', e', _, _, h3⟩ := hg m h
          rw [e] at e'; cases e'
          exact ⟨m, h, List.mem_map.2 ⟨k, (h3 k).2 ⟨by simpa using hl, r, hr⟩, rfl⟩⟩

/-! ### Such checkers exist -/

private theorem fold_select {test : Square → Res Bool} : ∀ (l : List Square) (B : Bitboard), B.Canonical →
    (∀ s ∈ l, s.Valid ∧ ∃ b, test s = .ok b) →
    ∃ C, l.foldlM (fun b s => do if ← test s then b.bitor_assign_sq s else return b) B = .ok C ∧ C.Canonical ∧
      ∀ t : Square, t.Valid → (C.Mem t ↔ B.Mem t ∨ (t ∈ l ∧ test t = .ok true))
  | [], B, hB, _ => ⟨B, rfl, hB, by simp⟩
  | s :: l, B, hB, h => by
    obtain ⟨hs, b, hb⟩ := h s (by simp)
    have h' : ∀ s ∈ l, s.Valid ∧ ∃ b, test s = .ok b := fun t ht => h t (by simp [ht])
    rw [List.foldlM_cons, hb, Res.bind_ok]
    cases b with
    | false =>
      obtain ⟨C, h1, h2, h3⟩ := fold_select l B hB h'
      refine ⟨C, h1, h2, fun t ht => (h3 t ht).trans ?_⟩
      rw [List.mem_cons]
      constructor
      · rintro (h | h)
        · exact .inl h
        · exact .inr ⟨.inr h.1, h.2⟩
      · rintro (h | ⟨rfl | h, e⟩)
        · exact .inl h
        · rw [hb] at e; cases e
        · exact .inr ⟨h, e⟩
    | true =>
      obtain ⟨x, y, z, -, hy, -, hm⟩ := C15_assign_square B s hs
      have hy' : y.Canonical := by
        unfold Bitboard.bitor_assign_sq at hy
        rw [Bitboard.single_ok hs, Res.bind_ok] at hy
        cases hy
        exact Bitboard.bitor_canonical hB (Bitboard.one_canonical (Square.idx0_lt hs))
      obtain ⟨C, h1, h2, h3⟩ := fold_select l y hy' h'
      refine ⟨C, by simp only [if_true, hy, Res.bind_ok]; exact h1, h2, fun t ht => (h3 t ht).trans ?_⟩
      rw [(hm t ht).2.1, List.mem_cons]
      constructor
      · rintro ((h | rfl) | h)
        · exact .inl h
        · exact .inr ⟨.inl rfl, hb⟩
        · exact .inr ⟨.inr h.1, h.2⟩
      · rintro (h | ⟨rfl | h, e⟩)
        · exact .inl (.inl h)
        · exact .inl (.inr rfl)
        · exact .inr ⟨h, e⟩

private theorem select_ok {test : Square → Res Bool} (h : ∀ s : Square, s.Valid → ∃ b, test s = .ok b) :
    ∃ B, LegalityChecker.select test = .ok B ∧ B.Canonical ∧
      ∀ t : Square, t.Valid → (B.Mem t ↔ test t = .ok true) := by
  obtain ⟨l, h1, h2, h3, _⟩ := C02_all
  obtain ⟨C, e, hC, hm⟩ := fold_select l Bitboard.empty Bitboard.empty_canonical
    fun s hs => ⟨(h2 s).1 hs, h s ((h2 s).1 hs)⟩
  refine ⟨C, by unfold LegalityChecker.select; rw [h1]; exact e, hC, fun t ht => (hm t ht).trans ?_⟩
  rw [h2]
  exact ⟨fun h => h.elim (fun h => absurd h (C15_empty t ht)) (·.2), fun h => .inr ⟨ht, h⟩⟩

/-- C83: any predicate that answers, and calls legal only what `make_move` accepts, can be made into a
checker as documented by trying everything. -/
theorem C83_brute (legal : PartialPosition → Move → Res Bool)
    (ht : ∀ p m, ApiReach p → m.Valid → ∃ b, legal p m = .ok b)
    (hs : ∀ p m, ApiReach p → m.Valid → legal p m = .ok true → ∃ q, p.make_move m = .ok (q, some ())) :
    (LegalityChecker.ofPredicate legal).Documented ∧
      (LegalityChecker.ofPredicate legal).is_legal_partial_lite = legal := by
  have either : ∀ p s t, ApiReach p → s.Valid → t.Valid → ∃ b, (do
      return (← legal p (.Normal s t false)) || (← legal p (.Normal s t true)) : Res Bool) = .ok b ∧
      (b = true ↔ ∃ promote, legal p (.Normal s t promote) = .ok true) := by
    intro p s t hp h1 h2
    obtain ⟨b, hb⟩ := ht p (.Normal s t false) hp ⟨h1, h2⟩
    obtain ⟨b', hb'⟩ := ht p (.Normal s t true) hp ⟨h1, h2⟩
    refine ⟨b || b', by rw [hb, hb']; rfl, ?_⟩
    rw [Bool.or_eq_true]
    constructor
    · rintro (rfl | rfl)
      · exact ⟨_, hb⟩
      · exact ⟨_, hb'⟩
    · rintro ⟨c, hc⟩
      cases c
      · rw [hb] at hc; cases hc; exact .inl rfl
      · rw [hb'] at hc; cases hc; exact .inr rfl
  have kept : ∀ p m, ApiReach p → m.Valid → Finds (do return if ← legal p m then [m] else [] : Res (List Move))
      fun m' => m' = m ∧ legal p m' = .ok true := by
    intro p m hp hm
    obtain ⟨b, hb⟩ := ht p m hp hm
    rw [hb, Res.bind_ok]
    cases b
    · exact ⟨[], rfl, .nil, fun m' => ⟨fun h => absurd h List.not_mem_nil,
        by rintro ⟨rfl, h⟩; rw [hb] at h; cases h⟩⟩
    · exact ⟨[m], rfl, by simp, fun m' => ⟨fun h => by rw [List.mem_singleton.1 h]; exact ⟨rfl, hb⟩,
        by rintro ⟨rfl, _⟩; simp⟩⟩
  refine ⟨⟨ht, hs, fun p hp => ?_, fun p s hp hv => ?_, fun p t x hp hv hx => ?_, fun p x hp hx => ?_⟩, rfl⟩
  · have h1 : Finds (Square.all >>= fun l => gather l fun s => do
        gather (← Square.all) fun t => gather [false, true] fun promote => do
          return if ← legal p (.Normal s t promote) then [.Normal s t promote] else [])
        fun m => ∃ s : Square, s.Valid ∧ ∃ t : Square, t.Valid ∧ ∃ promote ∈ [false, true], m = Move.Normal s t promote ∧
          legal p m = .ok true := by
      refine loop_finds squares_finds (fun s h1 => loop_finds squares_finds (fun t h2 =>
        gather_finds (by decide) (fun b _ => kept p (.Normal s t b) hp ⟨h1, h2⟩) ?_) ?_) ?_
      · rintro a _ a' _ m ⟨rfl, _⟩ ⟨e, _⟩; cases e; rfl
      · rintro a a' m _ _ ⟨_, _, rfl, _⟩ ⟨_, _, e, _⟩; cases e; rfl
      · rintro a a' m _ _ ⟨_, _, _, _, rfl, _⟩ ⟨_, _, _, _, e, _⟩; cases e; rfl
    have pieces : Finds (do return (← Piece.all).toList : Res (List Piece)) Piece.Valid := by
      obtain ⟨v, h1, h2, h3⟩ := C07_all
      exact ⟨v.toList, by rw [h1]; rfl, h2, h3⟩
    have h2 : Finds ((do return (← Piece.all).toList : Res (List Piece)) >>= fun l => gather l fun x => do
        gather (← Square.all) fun t => do return if ← legal p (.Drop x t) then [.Drop x t] else [])
        fun m => ∃ x : Piece, x.Valid ∧ ∃ t : Square, t.Valid ∧ m = Move.Drop x t ∧ legal p m = .ok true := by
      refine loop_finds pieces (fun x h1 => loop_finds squares_finds (fun t h2 => kept p (.Drop x t) hp ⟨h1, h2⟩) ?_) ?_
      · rintro a a' m _ _ ⟨rfl, _⟩ ⟨e, _⟩; cases e; rfl
      · rintro a a' m _ _ ⟨_, _, rfl, _⟩ ⟨_, _, e, _⟩; cases e; rfl
    have := append_finds h1 h2 (by rintro m ⟨_, _, _, _, _, _, rfl, _⟩ ⟨_, _, _, _, e, _⟩; cases e)
    refine Finds.congr (by simpa only [LegalityChecker.ofPredicate, bind_assoc, pure_bind] using this) fun m => ?_
    constructor
    · rintro (⟨s, h1, t, h2, b, _, rfl, h⟩ | ⟨x, h1, t, h2, rfl, h⟩)
      · exact ⟨⟨h1, h2⟩, h⟩
      · exact ⟨⟨h1, h2⟩, h⟩
    · rintro ⟨hv, h⟩
      cases m with
      | Normal s t b => exact .inl ⟨s, hv.1, t, hv.2, b, by cases b <;> simp, rfl, h⟩
      | Drop x t => exact .inr ⟨x, hv.1, t, hv.2, rfl, h⟩
  · obtain ⟨B, h1, h2, h3⟩ := select_ok (test := fun t => do
      return (← legal p (.Normal s t false)) || (← legal p (.Normal s t true)))
      fun t h => (either p s t hp hv h).imp fun _ h => h.1
    refine ⟨B, h1, h2, fun t h => (h3 t h).trans ?_⟩
    obtain ⟨b, e, hb⟩ := either p s t hp hv h
    rw [e, Res.ok.injEq]; exact hb
  · have look : ∀ s : Square, s.Valid → ∃ b, (do return decide ((← p.piece_at s) = some x) &&
        ((← legal p (.Normal s t false)) || (← legal p (.Normal s t true))) : Res Bool) = .ok b ∧
        (b = true ↔ p.piece_at s = .ok (some x) ∧ ∃ promote, legal p (.Normal s t promote) = .ok true) := by
      intro s h
      obtain ⟨b, e, hb⟩ := either p s t hp h hv
      obtain ⟨o, ho⟩ : ∃ o, p.piece_at s = .ok o := ⟨_, piece_at_ok p h⟩
      obtain ⟨b1, e1⟩ := ht p (.Normal s t false) hp ⟨h, hv⟩
      obtain ⟨b2, e2⟩ := ht p (.Normal s t true) hp ⟨h, hv⟩
      rw [e1, e2] at e
      refine ⟨decide (o = some x) && b, by rw [ho, e1, e2]; cases e; rfl, ?_⟩
      rw [Bool.and_eq_true, hb, ho, decide_eq_true_iff, Res.ok.injEq]
    obtain ⟨B, h1, h2, h3⟩ := select_ok fun s h => (look s h).imp fun _ h => h.1
    refine ⟨B, h1, h2, fun s h => (h3 s h).trans ?_⟩
    obtain ⟨b, e, hb⟩ := look s h
    rw [e, Res.ok.injEq]; exact hb
  · exact select_ok fun t h => ht p (.Drop x t) hp ⟨hx, h⟩

/-- Non-vacuity: the most liberal checker, which calls legal what `make_move` accepts. -/
private def liberal : LegalityChecker := .ofPredicate fun p m => do return (← p.make_move m).2.isSome

private theorem liberal_documented : (liberal : LegalityChecker).Documented := by
  refine (C83_brute _ (fun p m hp hm => ?_) fun p m hp hm h => ?_).1
  · rcases make_move_ok (reach_ok hp) hm with ⟨_, q, e, _⟩ | ⟨_, e⟩ <;> rw [e] <;> exact ⟨_, rfl⟩
  · rcases make_move_ok (reach_ok hp) hm with ⟨_, q, e, _⟩ | ⟨_, e⟩
    · exact ⟨q, e⟩
    · rw [e] at h; cases h

/-- From the start it finds, among others, the pawn push 7g7f, and lines of any length are counted. -/
example : ∃ p l, startpos = .ok p ∧ (liberal : LegalityChecker).generateFrom p = .ok l ∧ l.Nodup ∧
    Move.Normal (Square.at 7 7) (Square.at 7 6) false ∈ l ∧
    Move.Normal (Square.at 5 5) (Square.at 5 4) false ∉ l ∧
    ∀ n, ∃ ls, (liberal : LegalityChecker).perft n p = .ok (List.length (α := List Move) ls) := by
  obtain ⟨p, hp⟩ : ∃ p, startpos = .ok p := ⟨_, startpos_ok⟩
  have hr := ApiReach.startpos hp
  have hS := shows_start hp
  obtain ⟨l, e, hn, hm⟩ := C83_from liberal liberal_documented p hr
  refine ⟨p, l, hp, e, hn, (hm _).2 ⟨by decide, ?_⟩, fun h => ?_, fun n => ?_⟩
  · obtain ⟨q, e⟩ := (C28_accept_iff p hr (.Normal (Square.at 7 7) (Square.at 7 6) false) (by decide)).1.1
      ((acceptable_step hS (by decide)).2 (by decide +kernel))
    show (do return (← p.make_move _).2.isSome : Res Bool) = .ok true
    rw [e]; rfl
  · obtain ⟨hv, h⟩ := (hm _).1 h
    obtain ⟨q, e⟩ := liberal_documented.succeeds p _ hr hv h
    have := (acceptable_step hS hv).1 ((C28_accept_iff p hr _ hv).1.2 ⟨q, e⟩)
    revert this; decide +kernel
  · obtain ⟨ls, h, _⟩ := C83_perft liberal liberal_documented n p hr
    exact ⟨ls, h⟩

/-! ### Checkers that follow the rules -/

/-- The rules of shogi (Spec/Rules.lean), and nothing is legal while the player not to move is in
check. -/
def LegalityChecker.FollowsRules (L : LegalityChecker) : Prop :=
  ∀ p S m, ApiReach p → m.Valid → p.Shows S →
    (L.is_legal_partial_lite p m = .ok true ↔ S.Legal m.action ∧ ¬S.InCheck S.side.other)

private theorem line_snoc {p q r : PartialPosition} {l : List Move} {m : Move} (h : L.Line p l q) (hm : m.Valid)
    (hl : L.is_legal_partial_lite q m = .ok true) (e : q.make_move m = .ok (r, some ())) :
    L.Line p (l ++ [m]) r := by
  induction h with
  | nil => exact .cons hm hl e .nil
  | cons a b c _ ih => exact .cons a b c (ih hl e)

private theorem byRules_cons {S T U : Shogi} {a : Action} {l : List Action} (ha : S.Legal a) (hs : S.step a = some T)
    (h : T.ByRules l U) : S.ByRules (a :: l) U := by
  induction h with
  | start => exact .next (l := []) .start ha hs
  | next _ h1 h2 ih => exact .next ih h1 h2

private theorem line_rules (hR : L.FollowsRules) {p q : PartialPosition} {l : List Move} (h : L.Line p l q) :
    ∀ S, GameReach p → p.Shows S → (∀ m ∈ l, m.Valid) ∧ ∃ T, S.ByRules (l.map Move.action) T := by
  induction h with
  | nil => intro S _ _; exact ⟨by simp, S, .start⟩
  | @cons p m q l r hm hl e _ ih =>
    intro S hg hS
    obtain ⟨ha, hc⟩ := (hR p S m (game_reach hg) hm hS).1 hl
    obtain ⟨q', T, e', hT, hq, _⟩ := C81_legal p (game_reach hg) S hS (game_hands hg hS) hc m hm ha
    rw [e] at e'; cases e'
    obtain ⟨hv, U, hU⟩ := ih T (game_trans hg hm e) hq
    exact ⟨by simpa using ⟨hm, hv⟩, U, byRules_cons ha hT hU⟩

private theorem rules_line (hR : L.FollowsRules) {p : PartialPosition} (hp : startpos = .ok p) :
    ∀ k S, Shogi.start.ByRules k S → ∀ l : List Move, k = l.map Move.action → (∀ m ∈ l, m.Valid) →
      ∃ q, L.Line p l q ∧ q.Shows S ∧ GameReach q := by
  intro k S h
  induction h with
  | start =>
    intro l hl _
    have : l = [] := by simpa using hl.symm
    subst this
    exact ⟨p, .nil, shows_start hp, p, [], hp, .start⟩
  | @next k T a U h0 ha hU ih =>
    intro l hl hv
    rcases List.eq_nil_or_concat l with rfl | ⟨l', m, rfl⟩
    · simp at hl
    · simp only [List.concat_eq_append, List.map_append, List.map_cons, List.map_nil] at hl hv ⊢
      obtain ⟨e1, e2⟩ := List.append_inj' hl rfl
      simp only [List.cons.injEq, and_true] at e2
      subst e2
      obtain ⟨q, g1, g2, g3⟩ := ih l' e1 (fun m hm => hv m (by simp [hm]))
      have hm : m.Valid := hv m (by simp)
      obtain ⟨i1, i2, i3⟩ := Shogi.start_invariants
      have j3 := (Shogi.byRules_invariants h0 i1 i2 i3).2.2
      obtain ⟨r, T', e', hT, hq', _⟩ := C81_legal _ (game_reach g3) T g2 (game_hands g3 g2) j3 m hm ha
      rw [hU] at hT; cases hT
      exact ⟨r, line_snoc g1 hm ((hR q T m (game_reach g3) hm g2).2 ⟨ha, j3⟩) e', hq', game_trans g3 hm e'⟩

/-- C83: with a checker that follows the rules, counting from the starting position counts the games
by the rules. -/
theorem C83_rules (L : LegalityChecker) (hL : L.Documented) (hR : L.FollowsRules) (n : Nat) :
    ∃ p, startpos = .ok p ∧ ∃ ls : List (List Move), L.perft n p = .ok ls.length ∧ ls.Nodup ∧
      ∀ l, l ∈ ls ↔ l.length = n ∧ (∀ m ∈ l, m.Valid) ∧ ∃ S, Shogi.start.ByRules (l.map Move.action) S := by
  obtain ⟨p, hp⟩ : ∃ p, startpos = .ok p := ⟨_, startpos_ok⟩
  obtain ⟨ls, h1, h2, h3⟩ := C83_perft L hL n p (.startpos hp)
  refine ⟨p, hp, ls, h1, h2, fun l => (h3 l).trans (and_congr_right fun _ => ⟨?_, ?_⟩)⟩
  · rintro ⟨q, h⟩; exact line_rules hR h _ ⟨p, [], hp, .start⟩ (shows_start hp)
  · rintro ⟨hv, S, h⟩
    obtain ⟨q, hq, _⟩ := rules_line hR hp _ S h l rfl hv
    exact ⟨q, hq⟩

/-- Non-vacuity: there is a documented checker that follows the rules. -/
example : ∃ L : LegalityChecker, L.Documented ∧ L.FollowsRules := by
  refine ⟨.ofPredicate ruleBook.is_legal_partial_lite, ?_, ?_⟩
  · refine (C83_brute _ (fun p m _ _ => ⟨_, rfl⟩) fun p m hp hm h => ?_).1
    simp only [Res.ok.injEq, decide_eq_true_iff] at h
    obtain ⟨S, hS, ha, hc⟩ := h
    exact (C28_accept_iff _ hp m hm).1.1 ((acceptable_step hS hm).2
      ((Shogi.shaped_step ha.1.1).2 (Shogi.shaped_no_capture hc ha.1.1)))
  · intro p S m hp hm hS
    show ruleBook.is_legal_partial_lite p m = .ok true ↔ _
    rw [← ruleBook_legal (Position.arbitrary_position p) S m hS]
    simp only [LegalityChecker.is_legal, ruleBook, Res.bind_ok, ne_eq, not_true_eq_false, if_false, Res.ok.injEq,
      decide_eq_true_iff]
    split <;> simp_all [Position.arbitrary_position, Position.get_inner]

end ShogiCore
