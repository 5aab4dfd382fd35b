import Verif.Lemmas.Debug
import Verif.Props.Order
import Verif.Props.Header

/- C78: the texts of `{:?}` and `{:#?}`.  C89: the same with any other options of the format string. -/

namespace ShogiCore

/-! ### Every type writes a tree of words, a different one for every value -/

/-- The trees are well-formed and determine the value, under all options that keep texts
readable. -/
private structure Lawful (α : Type) [Debug α] : Prop where
  wf : ∀ {o : FmtOpts}, o.Readable → ∀ a : α, ((Debug.tree a).norm o).WF
  inj : ∀ {o : FmtOpts}, o.Readable → ∀ a b : α, (Debug.tree a).norm o = (Debug.tree b).norm o → a = b

private theorem word_wf {l : List U8} (h : l ≠ [] ∧ Wordy l) : (DTree.word l).WF := h

private theorem word_inj {l l' : List U8} (h : DTree.word l = .word l') : l = l' := by
  injection h

private theorem lawful_int {n : Nat} : Lawful (BitVec n) where
  wf {o} ho a := by
    obtain ⟨k, e⟩ := integer_bare ho.fill a.toNat
    show unfilled o.fill (o.integer a.toNat) ≠ [] ∧ Wordy (unfilled o.fill (o.integer a.toNat))
    rw [e]
    refine ⟨?_, wordy_append (leadText_wordy o) (wordy_append (zero_wordy k) (digitsText_wordy _ _))⟩
    intro h
    exact digitsText_ne _ _ (List.append_eq_nil_iff.1 (List.append_eq_nil_iff.1 h).2).2
  inj {o} ho a b h := by
    obtain ⟨k, e⟩ := integer_bare ho.fill a.toNat
    obtain ⟨k', e'⟩ := integer_bare ho.fill b.toNat
    have h : DTree.word (unfilled o.fill (o.integer a.toNat)) =
      .word (unfilled o.fill (o.integer b.toNat)) := h
    have h := word_inj h
    rw [e, e'] at h
    exact BitVec.eq_of_toNat_eq (digitsText_zeros o.hex (List.append_cancel_left h))

private theorem bool_wordy (a : Bool) : Wordy (if a then ascii "true" else ascii "false") := by
  cases a <;> decide

private theorem lawful_bool : Lawful Bool where
  wf {o} ho a := by
    refine word_wf (l := unfilled o.fill (o.pad (if a then ascii "true" else ascii "false"))) ?_
    rw [pad_bare ho.fill (bool_wordy a)]
    cases hp : o.precision with
    | none => cases a <;> decide
    | some m =>
      refine ⟨?_, fun b hb => bool_wordy a b (List.mem_of_mem_take hb)⟩
      cases m with
      | zero => exact absurd hp ho.precision
      | succ m => cases a <;> exact nofun
  inj {o} ho a b h := by
    have h : unfilled o.fill (o.pad (if a then ascii "true" else ascii "false")) =
      unfilled o.fill (o.pad (if b then ascii "true" else ascii "false")) := word_inj h
    rw [pad_bare ho.fill (bool_wordy a), pad_bare ho.fill (bool_wordy b)] at h
    cases hp : o.precision with
    | none => rw [hp] at h; revert h; cases a <;> cases b <;> decide
    | some m =>
      rw [hp] at h
      cases m with
      | zero => exact absurd hp ho.precision
      | succ m =>
        have := congrArg List.head? h
        revert this
        cases a <;> cases b <;> first | exact fun _ => rfl | (intro e; exact absurd e (by simp [ascii]))

private theorem lawful_color : Lawful Color where
  wf _ a := by cases a <;> exact word_wf (by decide +kernel)
  inj _ a b h := by
    cases a <;> cases b <;> first | rfl | (have := word_inj h; revert this; decide +kernel)

private theorem lawful_kind : Lawful PieceKind where
  wf _ a := by cases a <;> exact word_wf (by decide +kernel)
  inj _ a b h := by
    cases a <;> cases b <;> first | rfl | (have := word_inj h; revert this; decide +kernel)

private theorem lawful_resolution : Lawful GameResolution where
  wf _ a := by cases a <;> exact word_wf (by decide +kernel)
  inj _ a b h := by
    cases a <;> cases b <;> first | rfl | (have := word_inj h; revert this; decide +kernel)

private theorem lawful_illegal : Lawful IllegalMoveKind where
  wf _ a := by cases a <;> exact word_wf (by decide +kernel)
  inj _ a b h := by
    cases a <;> cases b <;> first | rfl | (have := word_inj h; revert this; decide +kernel)

private theorem lawful_status : Lawful PositionStatus where
  wf _ a := by cases a <;> exact word_wf (by decide +kernel)
  inj _ a b h := by
    cases a <;> cases b <;> first | rfl | (have := word_inj h; revert this; decide +kernel)

private theorem ofList_wf {k : DKind} : ∀ {l : List DTree}, (∀ t ∈ l, t.WF) → (DEntries.ofList l).WF k
  | [], _ => trivial
  | t :: _, h => ⟨nofun, fun _ => rfl, h t (by simp), ofList_wf fun x hx => h x (by simp [hx])⟩

private theorem ofList_norm (o : FmtOpts) : ∀ l : List DTree,
    (DEntries.ofList l).norm o = .ofList (l.map (DTree.norm o))
  | [] => rfl
  | t :: r => by rw [DEntries.ofList, DEntries.norm, ofList_norm o r]; rfl

private theorem ofFields_norm (o : FmtOpts) : ∀ l : List (List U8 × DTree),
    (DEntries.ofFields l).norm o = .ofFields (l.map fun x => (x.1, x.2.norm o))
  | [] => rfl
  | (_, _) :: r => by rw [DEntries.ofFields, DEntries.norm, ofFields_norm o r]; rfl

private theorem newtype_norm (o : FmtOpts) (name : String) (t : DTree) :
    (DTree.newtype name t).norm o = .newtype name (t.norm o) := rfl

private theorem struct_norm (o : FmtOpts) (name : String) (fs : List (String × DTree)) :
    (DTree.struct name fs).norm o = .struct name (fs.map fun x => (x.1, x.2.norm o)) := by
  rw [DTree.struct, DTree.norm, ofFields_norm, DTree.struct, List.map_map, List.map_map]; rfl

private theorem ofList_inj : ∀ {l l' : List DTree}, DEntries.ofList l = DEntries.ofList l' → l = l'
  | [], [], _ => rfl
  | [], _ :: _, h => nomatch h
  | _ :: _, [], h => nomatch h
  | t :: l, t' :: l', h => by injection h with _ h1 h2; rw [h1, ofList_inj h2]

private theorem ofFields_wf : ∀ {l : List (List U8 × DTree)}, (∀ x ∈ l, Wordy x.1 ∧ x.2.WF) →
    (DEntries.ofFields l).WF .struct
  | [], _ => trivial
  | x :: _, h => ⟨(h x (by simp)).1, fun e => absurd rfl e, (h x (by simp)).2,
      ofFields_wf fun y hy => h y (by simp [hy])⟩

private theorem ofFields_inj : ∀ {l l' : List (List U8 × DTree)},
    DEntries.ofFields l = DEntries.ofFields l' → l = l'
  | [], [], _ => rfl
  | [], _ :: _, h => nomatch h
  | _ :: _, [], h => nomatch h
  | (_, _) :: l, (_, _) :: l', h => by injection h with h0 h1 h2; rw [h0, h1, ofFields_inj h2]

private theorem map_inj {α β : Type} {f : α → β} (h : ∀ a b, f a = f b → a = b) :
    ∀ {l l' : List α}, l.map f = l'.map f → l = l'
  | [], [], _ => rfl
  | [], _ :: _, e => nomatch e
  | _ :: _, [], e => nomatch e
  | a :: l, b :: l', e => by injection e with e1 e2; rw [h a b e1, map_inj h e2]

private theorem lawful_list {α : Type} [Debug α] (h : Lawful α) : Lawful (List α) where
  wf {o} ho l := by
    show DTree.WF (.node .list [] ((DEntries.ofList (l.map Debug.tree)).norm o))
    rw [ofList_norm]
    exact ⟨nofun, ofList_wf fun t ht => by
      obtain ⟨t', ht', rfl⟩ := List.mem_map.1 ht
      obtain ⟨a, _, rfl⟩ := List.mem_map.1 ht'
      exact h.wf ho a⟩
  inj {o} ho l l' e := by
    have e : DTree.node .list [] ((DEntries.ofList (l.map Debug.tree)).norm o) =
      .node .list [] ((DEntries.ofList (l'.map Debug.tree)).norm o) := e
    rw [ofList_norm, ofList_norm, List.map_map, List.map_map] at e
    injection e with _ _ e
    exact map_inj (h.inj ho) (ofList_inj e)

private theorem lawful_vector {α : Type} {n : Nat} [Debug α] (h : Lawful α) : Lawful (Vector α n) where
  wf ho v := (lawful_list h).wf ho v.toList
  inj ho _ _ e := Vector.toList_inj.1 ((lawful_list h).inj ho _ _ e)

private theorem newtype_wf {name : String} {t : DTree} (hn : Wordy (ascii name)) (h : t.WF) :
    (DTree.newtype name t).WF :=
  ⟨hn, ofList_wf fun x hx => by rw [List.mem_singleton.1 hx]; exact h⟩

private theorem newtype_inj {name name' : String} {t t' : DTree}
    (h : DTree.newtype name t = DTree.newtype name' t') : t = t' := by
  injection h with _ _ h
  injection ofList_inj h

private theorem lawful_option {α : Type} [Debug α] (h : Lawful α) : Lawful (Option α) where
  wf ho a := by
    cases a with
    | none => exact word_wf (by decide +kernel)
    | some a => exact newtype_wf (by decide +kernel) (h.wf ho a)
  inj {o} ho a b e := by
    cases a with
    | none =>
      cases b with
      | none => rfl
      | some b =>
        have e : DTree.word (ascii "None") = .newtype "Some" ((Debug.tree b).norm o) := e
        exact nomatch e
    | some a =>
      cases b with
      | none =>
        have e : DTree.newtype "Some" ((Debug.tree a).norm o) = .word (ascii "None") := e
        exact nomatch e
      | some b =>
        have e : DTree.newtype "Some" ((Debug.tree a).norm o) =
          .newtype "Some" ((Debug.tree b).norm o) := e
        rw [h.inj ho _ _ (newtype_inj e)]

private theorem lawful_newtype {α β : Type} [Debug α] [Debug β] (h : Lawful β) {name : String} {f : α → β}
    (hn : Wordy (ascii name)) (ht : ∀ a : α, Debug.tree a = DTree.newtype name (Debug.tree (f a)))
    (hf : ∀ a b, f a = f b → a = b) : Lawful α where
  wf ho a := by rw [ht, newtype_norm]; exact newtype_wf hn (h.wf ho _)
  inj ho a b e := by
    rw [ht, ht, newtype_norm, newtype_norm] at e; exact hf a b (h.inj ho _ _ (newtype_inj e))

private theorem lawful_square : Lawful Square := by
  exact lawful_newtype (f := Square.val) lawful_int (by decide +kernel) (fun _ => rfl) fun ⟨_⟩ ⟨_⟩ h => congrArg _ h
private theorem lawful_optionSquare : Lawful OptionSquare := by
  exact lawful_newtype (f := OptionSquare.val) lawful_int (by decide +kernel) (fun _ => rfl)
    fun ⟨_⟩ ⟨_⟩ h => congrArg _ h
private theorem lawful_piece : Lawful Piece := by
  exact lawful_newtype (f := Piece.val) lawful_int (by decide +kernel) (fun _ => rfl) fun ⟨_⟩ ⟨_⟩ h => congrArg _ h
private theorem lawful_optionPiece : Lawful OptionPiece := by
  exact lawful_newtype (f := OptionPiece.val) lawful_int (by decide +kernel) (fun _ => rfl)
    fun ⟨_⟩ ⟨_⟩ h => congrArg _ h
private theorem lawful_compact : Lawful CompactMove := by
  exact lawful_newtype (f := CompactMove.val) lawful_int (by decide +kernel) (fun _ => rfl)
    fun ⟨_⟩ ⟨_⟩ h => congrArg _ h
private theorem lawful_optionCompact : Lawful OptionCompactMove := by
  exact lawful_newtype (f := OptionCompactMove.val) lawful_int (by decide +kernel) (fun _ => rfl)
    fun ⟨_⟩ ⟨_⟩ h => congrArg _ h
private theorem lawful_optionResolution : Lawful OptionGameResolution := by
  exact lawful_newtype (f := OptionGameResolution.val) lawful_int (by decide +kernel) (fun _ => rfl)
    fun ⟨_⟩ ⟨_⟩ h => congrArg _ h
private theorem lawful_resultIllegal : Lawful ResultUnitIllegalMoveKind := by
  exact lawful_newtype (f := ResultUnitIllegalMoveKind.val) lawful_int (by decide +kernel) (fun _ => rfl)
    fun ⟨_⟩ ⟨_⟩ h => congrArg _ h
private theorem lawful_hand : Lawful Hand := by
  exact lawful_newtype (f := Hand.cells) (lawful_vector lawful_int) (by decide +kernel) (fun _ => rfl)
    fun ⟨_⟩ ⟨_⟩ h => congrArg _ h
private theorem lawful_bitboard : Lawful Bitboard := by
  exact lawful_newtype (f := fun a : Bitboard => [a.w0, a.w1]) (lawful_list lawful_int) (by decide +kernel)
    (fun _ => rfl) fun ⟨_, _⟩ ⟨_, _⟩ h => by simpa using h
private theorem lawful_byteSwapped : Lawful ByteSwappedBitboard := by
  exact lawful_newtype (f := fun a : ByteSwappedBitboard => [a.w0, a.w1]) (lawful_list lawful_int) (by decide +kernel)
    (fun _ => rfl) fun ⟨_, _⟩ ⟨_, _⟩ h => by simpa using h

private theorem struct_wf {name : String} {fs : List (String × DTree)} (hn : Wordy (ascii name))
    (hl : ∀ x ∈ fs.map Prod.fst, Wordy (ascii x)) (h : ∀ t ∈ fs.map Prod.snd, t.WF) :
    (DTree.struct name fs).WF :=
  ⟨hn, ofFields_wf fun x hx => by
    obtain ⟨y, hy, rfl⟩ := List.mem_map.1 hx
    exact ⟨hl _ (List.mem_map_of_mem hy), h _ (List.mem_map_of_mem hy)⟩⟩

private theorem struct_inj {name name' : String} {fs fs' : List (String × DTree)}
    (h : DTree.struct name fs = DTree.struct name' fs') :
    ascii name = ascii name' ∧ fs.map Prod.snd = fs'.map Prod.snd := by
  injection h with _ h0 h
  have := congrArg (List.map Prod.snd) (ofFields_inj h)
  rw [List.map_map, List.map_map] at this
  exact ⟨h0, this⟩

private theorem lawful_move : Lawful Move where
  wf ho a := by
    cases a with
    | Normal s t p =>
      rw [show Debug.tree _ = DTree.struct _ _ from rfl, struct_norm]
      refine struct_wf (by decide +kernel) (by simp only [List.map_cons, List.map_nil]; decide +kernel) fun t ht => ?_
      simp only [List.map_cons, List.map_nil, List.mem_cons, List.not_mem_nil, or_false] at ht
      rcases ht with rfl | rfl | rfl
      · exact lawful_square.wf ho _
      · exact lawful_square.wf ho _
      · exact lawful_bool.wf ho _
    | Drop x t =>
      rw [show Debug.tree _ = DTree.struct _ _ from rfl, struct_norm]
      refine struct_wf (by decide +kernel) (by simp only [List.map_cons, List.map_nil]; decide +kernel) fun t ht => ?_
      simp only [List.map_cons, List.map_nil, List.mem_cons, List.not_mem_nil, or_false] at ht
      rcases ht with rfl | rfl
      · exact lawful_piece.wf ho _
      · exact lawful_square.wf ho _
  inj {o} ho a b e := by
    cases a <;> cases b
    · have e : DTree.norm o (.struct _ _) = DTree.norm o (.struct _ _) := e
      rw [struct_norm, struct_norm] at e
      have := (struct_inj e).2
      simp only [List.map_cons, List.map_nil, List.cons.injEq, and_true] at this
      rw [lawful_square.inj ho _ _ this.1, lawful_square.inj ho _ _ this.2.1, lawful_bool.inj ho _ _ this.2.2]
    · have e : DTree.norm o (.struct "Normal" _) = DTree.norm o (.struct "Drop" _) := e
      rw [struct_norm, struct_norm] at e
      exact absurd (struct_inj e).1 (by decide +kernel)
    · have e : DTree.norm o (.struct "Drop" _) = DTree.norm o (.struct "Normal" _) := e
      rw [struct_norm, struct_norm] at e
      exact absurd (struct_inj e).1 (by decide +kernel)
    · have e : DTree.norm o (.struct _ _) = DTree.norm o (.struct _ _) := e
      rw [struct_norm, struct_norm] at e
      have := (struct_inj e).2
      simp only [List.map_cons, List.map_nil, List.cons.injEq, and_true] at this
      rw [lawful_piece.inj ho _ _ this.1, lawful_square.inj ho _ _ this.2]

private theorem lawful_partial : Lawful PartialPosition where
  wf ho a := by
    rw [show Debug.tree _ = DTree.struct _ _ from rfl, struct_norm]
    refine struct_wf (by decide +kernel) (by simp only [List.map_cons, List.map_nil]; decide +kernel) fun t ht => ?_
    simp only [List.map_cons, List.map_nil, List.mem_cons, List.not_mem_nil, or_false] at ht
    rcases ht with rfl | rfl | rfl | rfl | rfl | rfl | rfl | rfl
    · exact lawful_color.wf ho _
    · exact lawful_int.wf ho _
    · exact (lawful_vector lawful_hand).wf ho _
    · exact (lawful_vector lawful_optionPiece).wf ho _
    · exact (lawful_vector lawful_bitboard).wf ho _
    · exact (lawful_vector lawful_bitboard).wf ho _
    · exact lawful_optionCompact.wf ho _
    · exact (lawful_vector lawful_optionSquare).wf ho _
  inj {o} ho a b e := by
    have e : DTree.norm o (.struct _ _) = DTree.norm o (.struct _ _) := e
    rw [struct_norm, struct_norm] at e
    have := (struct_inj e).2
    simp only [List.map_cons, List.map_nil, List.cons.injEq, and_true] at this
    obtain ⟨h1, h2, h3, h4, h5, h6, h7, h8⟩ := this
    have h1 := lawful_color.inj ho _ _ h1
    have h2 := lawful_int.inj ho _ _ h2
    have h3 := (lawful_vector lawful_hand).inj ho _ _ h3
    have h4 := (lawful_vector lawful_optionPiece).inj ho _ _ h4
    have h5 := (lawful_vector lawful_bitboard).inj ho _ _ h5
    have h6 := (lawful_vector lawful_bitboard).inj ho _ _ h6
    have h7 := lawful_optionCompact.inj ho _ _ h7
    have h8 := (lawful_vector lawful_optionSquare).inj ho _ _ h8
    cases a; cases b; simp_all

private theorem lawful_partialGame : Lawful PartialGame where
  wf ho a := by
    rw [show Debug.tree _ = DTree.struct _ _ from rfl, struct_norm]
    refine struct_wf (by decide +kernel) (by simp only [List.map_cons, List.map_nil]; decide +kernel) fun t ht => ?_
    simp only [List.map_cons, List.map_nil, List.mem_cons, List.not_mem_nil, or_false] at ht
    rcases ht with rfl | rfl
    · exact lawful_partial.wf ho _
    · exact lawful_optionResolution.wf ho _
  inj {o} ho a b e := by
    have e : DTree.norm o (.struct _ _) = DTree.norm o (.struct _ _) := e
    rw [struct_norm, struct_norm] at e
    have := (struct_inj e).2
    simp only [List.map_cons, List.map_nil, List.cons.injEq, and_true] at this
    have h1 := lawful_partial.inj ho _ _ this.1
    have h2 := lawful_optionResolution.inj ho _ _ this.2
    cases a; cases b; simp_all

private theorem lawful_position : Lawful Position where
  wf ho a := by
    rw [show Debug.tree _ = DTree.struct _ _ from rfl, struct_norm]
    refine struct_wf (by decide +kernel) (by simp only [List.map_cons, List.map_nil]; decide +kernel) fun t ht => ?_
    simp only [List.map_cons, List.map_nil, List.mem_cons, List.not_mem_nil, or_false] at ht
    rcases ht with rfl | rfl | rfl
    · exact lawful_partial.wf ho _
    · exact lawful_partial.wf ho _
    · exact (lawful_list lawful_move).wf ho _
  inj {o} ho a b e := by
    have e : DTree.norm o (.struct _ _) = DTree.norm o (.struct _ _) := e
    rw [struct_norm, struct_norm] at e
    have := (struct_inj e).2
    simp only [List.map_cons, List.map_nil, List.cons.injEq, and_true] at this
    have h1 := lawful_partial.inj ho _ _ this.1
    have h2 := lawful_partial.inj ho _ _ this.2.1
    have h3 := (lawful_list lawful_move).inj ho _ _ this.2.2
    cases a; cases b; simp_all

private theorem lawful_game : Lawful Game where
  wf ho a := by
    rw [show Debug.tree _ = DTree.struct _ _ from rfl, struct_norm]
    refine struct_wf (by decide +kernel) (by simp only [List.map_cons, List.map_nil]; decide +kernel) fun t ht => ?_
    simp only [List.map_cons, List.map_nil, List.mem_cons, List.not_mem_nil, or_false] at ht
    rcases ht with rfl | rfl
    · exact lawful_position.wf ho _
    · exact lawful_optionResolution.wf ho _
  inj {o} ho a b e := by
    have e : DTree.norm o (.struct _ _) = DTree.norm o (.struct _ _) := e
    rw [struct_norm, struct_norm] at e
    have := (struct_inj e).2
    simp only [List.map_cons, List.map_nil, List.cons.injEq, and_true] at this
    have h1 := lawful_position.inj ho _ _ this.1
    have h2 := lawful_optionResolution.inj ho _ _ this.2
    cases a; cases b; simp_all

/-- In decimal, `#` has no effect on the numbers. -/
private theorem integer_alternate {o : FmtOpts} (h : o.hex = none) (x : Bool) (n : Nat) :
    ({ o with alternate := x }).integer n = o.integer n := by
  rw [FmtOpts.integer, FmtOpts.integer, h]
  simp only [FmtOpts.pad_integral, ite_self]
  rfl

mutual
private theorem norm_alternate {o : FmtOpts} (h : o.hex = none) (x : Bool) :
    ∀ t : DTree, t.norm { o with alternate := x } = t.norm o
  | .word _ => rfl
  | .int n => by rw [DTree.norm, DTree.norm, integer_alternate h]
  | .padded _ => rfl
  | .node k n es => by rw [DTree.norm, DTree.norm, norms_alternate h x es]
private theorem norms_alternate {o : FmtOpts} (h : o.hex = none) (x : Bool) :
    ∀ es : DEntries, es.norm { o with alternate := x } = es.norm o
  | .nil => rfl
  | .cons l t r => by rw [DEntries.norm, DEntries.norm, norm_alternate h x t, norms_alternate h x r]
end

private theorem bare {o : FmtOpts} (ho : o.Readable) {α : Type} [Debug α] (h : Lawful α) (a : α) :
    unfilled o.fill (debugWith o a) = ((Debug.tree a).norm o).skel o.alternate := by
  rw [debugWith]
  cases ha : o.alternate with
  | false => exact unfilled_compact ho.fill _ (h.wf ho a)
  | true => exact unfilled_prettied ho.fill _ (h.wf ho a)

private theorem layout_with {o : FmtOpts} (ho : o.Readable) {α : Type} [Debug α] (h : Lawful α)
    (hx : o.hex = none) (a : α) :
    untrail (unfilled o.fill (debugWith { o with alternate := true } a)) =
      unfilled o.fill (debugWith { o with alternate := false } a) := by
  have r : ∀ x, ({ o with alternate := x } : FmtOpts).Readable := fun _ => ⟨ho.fill, ho.precision⟩
  have e1 := bare (r true) h a
  have e2 := bare (r false) h a
  rw [norm_alternate hx] at e1 e2
  have := untrail_skel ((Debug.tree a).norm o) [] (h.wf ho a)
  rw [List.append_nil, untrail, List.append_nil] at this
  exact (congrArg untrail e1).trans (this.trans e2.symm)

private theorem faithful_with {o : FmtOpts} (ho : o.Readable) {α : Type} [Debug α] (h : Lawful α)
    {eq : α → α → Bool} (he : ∀ a b, eq a b = true ↔ a = b) : FaithfulWith o α eq := by
  have k : ∀ a b : α, unfilled o.fill (debugWith o a) = unfilled o.fill (debugWith o b) → a = b :=
    fun a b e => by
      rw [bare ho h, bare ho h] at e
      exact h.inj ho _ _ (skel_inj _ (h.wf ho a) (h.wf ho b) e)
  refine ⟨fun a b => ?_, fun a b => ?_, layout_with ho h⟩ <;> rw [he]
  · exact ⟨fun e => by rw [e], fun e => k a b (by rw [e])⟩
  · exact ⟨fun e => by rw [e], k a b⟩

private theorem plain (x : Bool) : ({ alternate := x } : FmtOpts).Readable :=
  ⟨(by decide : ∀ b ∈ ascii " ", meaningful b = false), nofun⟩

private theorem layout {α : Type} [Debug α] (h : Lawful α) (a : α) :
    untrail (unspaced (debugPretty a)) = unspaced (debugText a) := by
  have := layout_with (plain false) h rfl a
  rw [unfilled_space, unfilled_space] at this
  exact this

private theorem faithful {α : Type} [Debug α] (h : Lawful α) {eq : α → α → Bool}
    (he : ∀ a b, eq a b = true ↔ a = b) : FaithfulDebug α eq := by
  have c := faithful_with (plain false) h he
  have p := faithful_with (plain true) h he
  refine ⟨c.text, p.text, fun a b => ?_, fun a b => ?_, layout h⟩
  · rw [c.loose, unfilled_space, unfilled_space]; rfl
  · rw [p.loose, unfilled_space, unfilled_space]; rfl

private theorem beq_iff {α : Type} [BEq α] [LawfulBEq α] (a b : α) : (a == b) = true ↔ a = b := beq_iff_eq

/-! ### C78 -/

/-- C78: `==` holds exactly if the texts are the same, for all types that fit in a register; any
byte may be inside, valid or not. -/
theorem C78_values :
    FaithfulDebug Color (· == ·) ∧ FaithfulDebug PieceKind (· == ·) ∧
    FaithfulDebug GameResolution (· == ·) ∧ FaithfulDebug IllegalMoveKind (· == ·) ∧
    FaithfulDebug PositionStatus (· == ·) ∧
    FaithfulDebug Square (· == ·) ∧ FaithfulDebug OptionSquare (· == ·) ∧
    FaithfulDebug Piece (· == ·) ∧ FaithfulDebug OptionPiece (· == ·) ∧
    FaithfulDebug CompactMove (· == ·) ∧ FaithfulDebug OptionCompactMove (· == ·) ∧
    FaithfulDebug OptionGameResolution (· == ·) ∧ FaithfulDebug ResultUnitIllegalMoveKind (· == ·) ∧
    FaithfulDebug Move (· == ·) ∧ FaithfulDebug Hand Hand.eq ∧
    FaithfulDebug Bitboard (· == ·) ∧ FaithfulDebug ByteSwappedBitboard (· == ·) :=
  ⟨faithful lawful_color beq_iff, faithful lawful_kind beq_iff, faithful lawful_resolution beq_iff,
   faithful lawful_illegal beq_iff, faithful lawful_status beq_iff, faithful lawful_square beq_iff,
   faithful lawful_optionSquare beq_iff, faithful lawful_piece beq_iff,
   faithful lawful_optionPiece beq_iff, faithful lawful_compact beq_iff,
   faithful lawful_optionCompact beq_iff, faithful lawful_optionResolution beq_iff,
   faithful lawful_resultIllegal beq_iff, faithful lawful_move beq_iff,
   faithful lawful_hand Hand.eq_iff, faithful lawful_bitboard beq_iff,
   faithful lawful_byteSwapped beq_iff⟩

/-- C78: the same for positions and games, of any length. -/
theorem C78_positions :
    FaithfulDebug PartialPosition PartialPosition.eq ∧ FaithfulDebug Position Position.eq ∧
    FaithfulDebug PartialGame PartialGame.eq ∧ FaithfulDebug Game Game.eq :=
  ⟨faithful lawful_partial PartialPosition.eq_iff, faithful lawful_position Position.eq_iff,
   faithful lawful_partialGame PartialGame.eq_iff, faithful lawful_game Game.eq_iff⟩

/-- C78: the same for what the accessors return: options, and lists of moves of any length. -/
theorem C78_options :
    FaithfulDebug (Option Square) (· == ·) ∧ FaithfulDebug (Option Piece) (· == ·) ∧
    FaithfulDebug (Option PieceKind) (· == ·) ∧ FaithfulDebug (Option Color) (· == ·) ∧
    FaithfulDebug (Option Move) (· == ·) ∧ FaithfulDebug (Option CompactMove) (· == ·) ∧
    FaithfulDebug (Option GameResolution) (· == ·) ∧ FaithfulDebug (Option U8) (· == ·) ∧
    FaithfulDebug (List Move) (· == ·) ∧ FaithfulDebug (List Square) (· == ·) ∧
    FaithfulDebug (List (Option Move)) (· == ·) ∧ FaithfulDebug (List (List Move)) (· == ·) :=
  ⟨faithful (lawful_option lawful_square) beq_iff, faithful (lawful_option lawful_piece) beq_iff,
   faithful (lawful_option lawful_kind) beq_iff, faithful (lawful_option lawful_color) beq_iff,
   faithful (lawful_option lawful_move) beq_iff, faithful (lawful_option lawful_compact) beq_iff,
   faithful (lawful_option lawful_resolution) beq_iff, faithful (lawful_option lawful_int) beq_iff,
   faithful (lawful_list lawful_move) beq_iff, faithful (lawful_list lawful_square) beq_iff,
   faithful (lawful_list (lawful_option lawful_move)) beq_iff,
   faithful (lawful_list (lawful_list lawful_move)) beq_iff⟩

/-- C78: `{:?}` and `{:#?}` say the same: they differ in spaces, line breaks and the commas before
closing brackets only. -/
theorem C78_layout :
    (∀ m : Move, untrail (unspaced (debugPretty m)) = unspaced (debugText m)) ∧
    (∀ h : Hand, untrail (unspaced (debugPretty h)) = unspaced (debugText h)) ∧
    (∀ b : Bitboard, untrail (unspaced (debugPretty b)) = unspaced (debugText b)) ∧
    (∀ p : PartialPosition, untrail (unspaced (debugPretty p)) = unspaced (debugText p)) ∧
    (∀ p : Position, untrail (unspaced (debugPretty p)) = unspaced (debugText p)) ∧
    (∀ g : PartialGame, untrail (unspaced (debugPretty g)) = unspaced (debugText g)) ∧
    (∀ g : Game, untrail (unspaced (debugPretty g)) = unspaced (debugText g)) :=
  ⟨layout lawful_move, layout lawful_hand, layout lawful_bitboard, layout lawful_partial,
   layout lawful_position, layout lawful_partialGame, layout lawful_game⟩

private theorem newtype_text (name : String) (t : DTree) :
    (DTree.newtype name t).compact {} = newtypeText name (t.compact {}) := by
  simp [DTree.newtype, DTree.compact, DEntries.ofList, DEntries.compact, newtypeText, DKind.label]

private theorem int_text {n : Nat} (a : BitVec n) : (Debug.tree a).compact {} = decimal a.toNat := by
  show fmtNat a.toNat = _
  rw [fmtNat_eq, List.append_nil]

private theorem entries_text : ∀ l : List DTree,
    (DEntries.ofList l).compact {} .list = ((l.map (DTree.compact {})).intersperse (ascii ", ")).flatten
  | [] => rfl
  | [t] => by simp [DEntries.ofList, DEntries.compact, DKind.label]
  | t :: t' :: r => by
    have := entries_text (t' :: r)
    rw [DEntries.ofList] at this
    rw [DEntries.ofList, DEntries.ofList, DEntries.compact, this]
    simp [DKind.label]

private theorem list_text {α : Type} [Debug α] (l : List α) :
    debugText l = listText (l.map debugText) := by
  show DTree.compact {} (.node .list [] (.ofList (l.map Debug.tree))) = _
  rw [DTree.compact, entries_text, List.map_map]; rfl

/-- C78: what the texts are.  Squares and pieces show their byte, hands their eight bytes,
bitboards their two words, all in decimal; lists are `[a, b]`. -/
theorem C78_texts :
    (∀ s : Square, debugText s = newtypeText "Square" (decimal s.val.toNat)) ∧
    (∀ x : Piece, debugText x = newtypeText "Piece" (decimal x.val.toNat)) ∧
    (∀ m : CompactMove, debugText m = newtypeText "CompactMove" (decimal m.val.toNat)) ∧
    (∀ s : OptionSquare, debugText s = newtypeText "OptionSquare" (decimal s.val.toNat)) ∧
    (∀ x : OptionPiece, debugText x = newtypeText "OptionPiece" (decimal x.val.toNat)) ∧
    (∀ m : OptionCompactMove, debugText m = newtypeText "OptionCompactMove" (decimal m.val.toNat)) ∧
    (∀ r : OptionGameResolution, debugText r =
      newtypeText "OptionGameResolution" (decimal r.val.toNat)) ∧
    (∀ r : ResultUnitIllegalMoveKind, debugText r =
      newtypeText "ResultUnitIllegalMoveKind" (decimal r.val.toNat)) ∧
    (∀ h : Hand, debugText h =
      newtypeText "Hand" (listText (h.cells.toList.map fun c => decimal c.toNat))) ∧
    (∀ b : Bitboard, debugText b =
      newtypeText "Bitboard" (listText [decimal b.w0.toNat, decimal b.w1.toNat])) ∧
    (∀ b : ByteSwappedBitboard, debugText b =
      newtypeText "ByteSwappedBitboard" (listText [decimal b.w0.toNat, decimal b.w1.toNat])) ∧
    (∀ s t pr, debugText (Move.Normal s t pr) =
      ascii "Normal { from: " ++ debugText s ++ ascii ", to: " ++ debugText t ++
      ascii ", promote: " ++ (if pr then ascii "true" else ascii "false") ++ ascii " }") ∧
    (∀ x t, debugText (Move.Drop x t) =
      ascii "Drop { piece: " ++ debugText x ++ ascii ", to: " ++ debugText t ++ ascii " }") ∧
    (∀ l : List Move, debugText l = listText (l.map debugText)) := by
  refine ⟨fun s => ?_, fun x => ?_, fun m => ?_, fun s => ?_, fun x => ?_, fun m => ?_, fun r => ?_,
    fun r => ?_, fun h => ?_, fun b => ?_, fun b => ?_, fun s t pr => ?_, fun x t => ?_, list_text⟩
  · exact (newtype_text ..).trans (by rw [int_text])
  · exact (newtype_text ..).trans (by rw [int_text])
  · exact (newtype_text ..).trans (by rw [int_text])
  · exact (newtype_text ..).trans (by rw [int_text])
  · exact (newtype_text ..).trans (by rw [int_text])
  · exact (newtype_text ..).trans (by rw [int_text])
  · exact (newtype_text ..).trans (by rw [int_text])
  · exact (newtype_text ..).trans (by rw [int_text])
  · refine (newtype_text ..).trans (congrArg _ ((list_text h.cells.toList).trans ?_))
    congr 1
    exact List.map_congr_left fun c _ => int_text c
  · refine (newtype_text ..).trans (congrArg _ ((list_text [b.w0, b.w1]).trans ?_))
    rw [List.map_cons, List.map_cons, List.map_nil]
    exact congrArg listText (congr (congrArg _ (int_text _)) (congrArg (· :: []) (int_text _)))
  · refine (newtype_text ..).trans (congrArg _ ((list_text [b.w0, b.w1]).trans ?_))
    rw [List.map_cons, List.map_cons, List.map_nil]
    exact congrArg listText (congr (congrArg _ (int_text _)) (congrArg (· :: []) (int_text _)))
  · show DTree.compact {} (.node .struct (ascii "Normal") (.cons (ascii "from") (Debug.tree s)
      (.cons (ascii "to") (Debug.tree t) (.cons (ascii "promote") (Debug.tree pr) .nil)))) = _
    rw [DTree.compact, DEntries.compact, DEntries.compact, DEntries.compact]
    cases pr <;> simp only [DKind.label, List.append_assoc] <;> rfl
  · show DTree.compact {} (.node .struct (ascii "Drop") (.cons (ascii "piece") (Debug.tree x)
      (.cons (ascii "to") (Debug.tree t) .nil))) = _
    rw [DTree.compact, DEntries.compact, DEntries.compact]
    simp only [DKind.label, List.append_assoc]; rfl

/-- C78: the same for positions and games: all fields in their order, the arrays as lists. -/
theorem C78_position_texts :
    (∀ p : PartialPosition, debugText p =
      ascii "PartialPosition { side: " ++ debugText p.side ++
      ascii ", ply: " ++ decimal p.ply.toNat ++
      ascii ", hands: " ++ listText (p.hands.toList.map debugText) ++
      ascii ", board: " ++ listText (p.board.toList.map debugText) ++
      ascii ", player_bb: " ++ listText (p.player_bb.toList.map debugText) ++
      ascii ", piece_bb: " ++ listText (p.piece_bb.toList.map debugText) ++
      ascii ", last_move: " ++ newtypeText "OptionCompactMove" (decimal p.last_move.val.toNat) ++
      ascii ", king_square: " ++ listText (p.king_square.toList.map debugText) ++ ascii " }") ∧
    (∀ p : Position, debugText p =
      ascii "Position { initial: " ++ debugText p.initial ++ ascii ", inner: " ++ debugText p.inner ++
      ascii ", moves: " ++ listText (p.moves.map debugText) ++ ascii " }") ∧
    (∀ g : PartialGame, debugText g = ascii "PartialGame { inner: " ++ debugText g.inner ++
      ascii ", resolution: " ++ newtypeText "OptionGameResolution" (decimal g.resolution.val.toNat) ++
      ascii " }") ∧
    (∀ g : Game, debugText g = ascii "Game { inner: " ++ debugText g.inner ++
      ascii ", resolution: " ++ newtypeText "OptionGameResolution" (decimal g.resolution.val.toNat) ++
      ascii " }") := by
  refine ⟨fun p => ?_, fun p => ?_, fun g => ?_, fun g => ?_⟩
  · have h1 : (Debug.tree p.last_move).compact {} = _ := newtype_text "OptionCompactMove" _
    show DTree.compact {} (DTree.struct "PartialPosition" _) = _
    rw [← list_text, ← list_text, ← list_text, ← list_text, ← list_text]
    simp only [DTree.struct, List.map_cons, List.map_nil, DEntries.ofFields, DTree.compact,
      DEntries.compact, h1, int_text, DKind.label]
    simp only [List.append_assoc]
    rfl
  · show DTree.compact {} (DTree.struct "Position" _) = _
    rw [← list_text]
    simp only [DTree.struct, List.map_cons, List.map_nil, DEntries.ofFields, DTree.compact,
      DEntries.compact, DKind.label]
    simp only [List.append_assoc]
    rfl
  · have h1 : (Debug.tree g.resolution).compact {} = _ := newtype_text "OptionGameResolution" _
    show DTree.compact {} (DTree.struct "PartialGame" _) = _
    simp only [DTree.struct, List.map_cons, List.map_nil, DEntries.ofFields, DTree.compact,
      DEntries.compact, h1, int_text, DKind.label]
    simp only [List.append_assoc]
    rfl
  · have h1 : (Debug.tree g.resolution).compact {} = _ := newtype_text "OptionGameResolution" _
    show DTree.compact {} (DTree.struct "Game" _) = _
    simp only [DTree.struct, List.map_cons, List.map_nil, DEntries.ofFields, DTree.compact,
      DEntries.compact, h1, int_text, DKind.label]
    simp only [List.append_assoc]
    rfl

/-- C78: variants of enums print as the names that the C header has for their values. -/
theorem C78_enum_texts :
    (∀ a : Color, ∃ n, debugText a = ascii n ∧ enumerator "Color" n = some a.toU8.toNat) ∧
    (∀ a : PieceKind, ∃ n, debugText a = ascii n ∧ enumerator "PieceKind" n = some a.toU8.toNat) ∧
    (∀ a : GameResolution, ∃ n, debugText a = ascii n ∧
      enumerator "GameResolution" n = some a.toU8.toNat) ∧
    (∀ a : IllegalMoveKind, ∃ n, debugText a = ascii n ∧
      enumerator "IllegalMoveKind" n = some a.toU8.toNat) ∧
    ([.InProgress, .BlackWins, .WhiteWins, .Draw, .Invalid] : List PositionStatus).map debugText =
      ["InProgress", "BlackWins", "WhiteWins", "Draw", "Invalid"].map ascii := by
  refine ⟨fun a => ⟨a.ident, ?_, C72_enumerators.1.named a⟩,
    fun a => ⟨a.ident, ?_, C72_enumerators.2.2.2.named a⟩,
    fun a => ⟨a.ident, ?_, C72_enumerators.2.1.named a⟩,
    fun a => ⟨a.ident, ?_, C72_enumerators.2.2.1.named a⟩, rfl⟩ <;> cases a <;> rfl

/-- C78: the text does not name the type of an enum: the result of a game and the status of a
position print alike. -/
theorem C78_alike_across_types :
    debugText GameResolution.BlackWins = debugText PositionStatus.BlackWins ∧
    debugText GameResolution.WhiteWins = debugText PositionStatus.WhiteWins ∧
    debugText GameResolution.Draw = debugText PositionStatus.Draw := ⟨rfl, rfl, rfl⟩

/-! ### C89 -/

/-- C89: whatever else the format string asks for (width, fill, alignment, sign, zeros, hexadecimal,
precision, `#`), texts tell the values apart that fit in a register, as long as they stay readable. -/
theorem C89_values {o : FmtOpts} (ho : o.Readable) :
    FaithfulWith o Color (· == ·) ∧ FaithfulWith o PieceKind (· == ·) ∧
    FaithfulWith o GameResolution (· == ·) ∧ FaithfulWith o IllegalMoveKind (· == ·) ∧
    FaithfulWith o PositionStatus (· == ·) ∧
    FaithfulWith o Square (· == ·) ∧ FaithfulWith o OptionSquare (· == ·) ∧
    FaithfulWith o Piece (· == ·) ∧ FaithfulWith o OptionPiece (· == ·) ∧
    FaithfulWith o CompactMove (· == ·) ∧ FaithfulWith o OptionCompactMove (· == ·) ∧
    FaithfulWith o OptionGameResolution (· == ·) ∧
    FaithfulWith o ResultUnitIllegalMoveKind (· == ·) ∧
    FaithfulWith o Move (· == ·) ∧ FaithfulWith o Hand Hand.eq ∧
    FaithfulWith o Bitboard (· == ·) ∧ FaithfulWith o ByteSwappedBitboard (· == ·) :=
  ⟨faithful_with ho lawful_color beq_iff, faithful_with ho lawful_kind beq_iff,
   faithful_with ho lawful_resolution beq_iff, faithful_with ho lawful_illegal beq_iff,
   faithful_with ho lawful_status beq_iff, faithful_with ho lawful_square beq_iff,
   faithful_with ho lawful_optionSquare beq_iff, faithful_with ho lawful_piece beq_iff,
   faithful_with ho lawful_optionPiece beq_iff, faithful_with ho lawful_compact beq_iff,
   faithful_with ho lawful_optionCompact beq_iff, faithful_with ho lawful_optionResolution beq_iff,
   faithful_with ho lawful_resultIllegal beq_iff, faithful_with ho lawful_move beq_iff,
   faithful_with ho lawful_hand Hand.eq_iff, faithful_with ho lawful_bitboard beq_iff,
   faithful_with ho lawful_byteSwapped beq_iff⟩

/-- C89: the same for positions and games. -/
theorem C89_positions {o : FmtOpts} (ho : o.Readable) :
    FaithfulWith o PartialPosition PartialPosition.eq ∧ FaithfulWith o Position Position.eq ∧
    FaithfulWith o PartialGame PartialGame.eq ∧ FaithfulWith o Game Game.eq :=
  ⟨faithful_with ho lawful_partial PartialPosition.eq_iff, faithful_with ho lawful_position Position.eq_iff,
   faithful_with ho lawful_partialGame PartialGame.eq_iff, faithful_with ho lawful_game Game.eq_iff⟩

/-- C89: the same for what the accessors return. -/
theorem C89_options {o : FmtOpts} (ho : o.Readable) :
    FaithfulWith o (Option Square) (· == ·) ∧ FaithfulWith o (Option Piece) (· == ·) ∧
    FaithfulWith o (Option PieceKind) (· == ·) ∧ FaithfulWith o (Option Color) (· == ·) ∧
    FaithfulWith o (Option Move) (· == ·) ∧ FaithfulWith o (Option CompactMove) (· == ·) ∧
    FaithfulWith o (Option GameResolution) (· == ·) ∧ FaithfulWith o (Option U8) (· == ·) ∧
    FaithfulWith o (List Move) (· == ·) ∧ FaithfulWith o (List Square) (· == ·) ∧
    FaithfulWith o (List (Option Move)) (· == ·) ∧ FaithfulWith o (List (List Move)) (· == ·) :=
  ⟨faithful_with ho (lawful_option lawful_square) beq_iff,
   faithful_with ho (lawful_option lawful_piece) beq_iff,
   faithful_with ho (lawful_option lawful_kind) beq_iff,
   faithful_with ho (lawful_option lawful_color) beq_iff,
   faithful_with ho (lawful_option lawful_move) beq_iff,
   faithful_with ho (lawful_option lawful_compact) beq_iff,
   faithful_with ho (lawful_option lawful_resolution) beq_iff,
   faithful_with ho (lawful_option lawful_int) beq_iff,
   faithful_with ho (lawful_list lawful_move) beq_iff,
   faithful_with ho (lawful_list lawful_square) beq_iff,
   faithful_with ho (lawful_list (lawful_option lawful_move)) beq_iff,
   faithful_with ho (lawful_list (lawful_list lawful_move)) beq_iff⟩

/-- C89: the width counts for every number inside, not for the whole; every option, readable or not. -/
theorem C89_numbers (o : FmtOpts) (ha : o.alternate = false) :
    (∀ s : Square, ∃ l, NumberText o s.val.toNat l ∧ debugWith o s = newtypeText "Square" l) ∧
    (∀ x : Piece, ∃ l, NumberText o x.val.toNat l ∧ debugWith o x = newtypeText "Piece" l) ∧
    (∀ m : CompactMove, ∃ l, NumberText o m.val.toNat l ∧ debugWith o m = newtypeText "CompactMove" l) ∧
    (∀ s : OptionSquare, ∃ l, NumberText o s.val.toNat l ∧
      debugWith o s = newtypeText "OptionSquare" l) ∧
    (∀ x : OptionPiece, ∃ l, NumberText o x.val.toNat l ∧
      debugWith o x = newtypeText "OptionPiece" l) ∧
    (∀ m : OptionCompactMove, ∃ l, NumberText o m.val.toNat l ∧
      debugWith o m = newtypeText "OptionCompactMove" l) ∧
    (∀ b : Bitboard, ∃ l l', NumberText o b.w0.toNat l ∧ NumberText o b.w1.toNat l' ∧
      debugWith o b = newtypeText "Bitboard" (listText [l, l'])) ∧
    (∀ h : Hand, ∃ f : U8 → List U8, (∀ c, NumberText o c.toNat (f c)) ∧
      debugWith o h = newtypeText "Hand" (listText (h.cells.toList.map f))) := by
  have nt : ∀ {α : Type} [Debug α] (a : α) (name : String) (t : DTree), Debug.tree a = .newtype name t →
      debugWith o a = newtypeText name (t.compact o) := by
    intro α _ a name t e
    rw [debugWith, ha, if_neg nofun, e]
    simp [DTree.newtype, DTree.compact, DEntries.ofList, DEntries.compact, newtypeText, DKind.label]
  have es : ∀ l : List DTree, (DEntries.ofList l).compact o .list =
      ((l.map (DTree.compact o)).intersperse (ascii ", ")).flatten := by
    intro l
    induction l with
    | nil => rfl
    | cons t r ih =>
      cases r with
      | nil => simp [DEntries.ofList, DEntries.compact, DKind.label]
      | cons t' r =>
        rw [DEntries.ofList] at ih
        rw [DEntries.ofList, DEntries.ofList, DEntries.compact, ih]
        simp [DKind.label]
  refine ⟨fun s => ⟨_, integer_text o _, nt s "Square" (.int s.val.toNat) rfl⟩,
    fun s => ⟨_, integer_text o _, nt s "Piece" (.int s.val.toNat) rfl⟩,
    fun s => ⟨_, integer_text o _, nt s "CompactMove" (.int s.val.toNat) rfl⟩,
    fun s => ⟨_, integer_text o _, nt s "OptionSquare" (.int s.val.toNat) rfl⟩,
    fun s => ⟨_, integer_text o _, nt s "OptionPiece" (.int s.val.toNat) rfl⟩,
    fun s => ⟨_, integer_text o _, nt s "OptionCompactMove" (.int s.val.toNat) rfl⟩,
    fun b => ⟨_, _, integer_text o _, integer_text o _, (nt _ _ _ rfl).trans ?_⟩,
    fun h => ⟨fun c => o.integer c.toNat, fun c => integer_text o _, (nt _ _ _ rfl).trans ?_⟩⟩
  · refine congrArg _ ?_
    show DTree.compact o (.node .list [] (.ofList _)) = _
    rw [DTree.compact, es]; rfl
  · refine congrArg _ ?_
    show DTree.compact o (.node .list [] (.ofList _)) = _
    rw [DTree.compact, es, List.map_map]; rfl

/-- C89: fields are written with the same options; `true` and `false` too are padded. -/
theorem C89_texts (o : FmtOpts) (ha : o.alternate = false) :
    (∀ s t pr, ∃ l, WordText o (if pr then ascii "true" else ascii "false") l ∧
      debugWith o (Move.Normal s t pr) = ascii "Normal { from: " ++ debugWith o s ++
        ascii ", to: " ++ debugWith o t ++ ascii ", promote: " ++ l ++ ascii " }") ∧
    (∀ x t, debugWith o (Move.Drop x t) =
      ascii "Drop { piece: " ++ debugWith o x ++ ascii ", to: " ++ debugWith o t ++ ascii " }") ∧
    (∀ p : PartialPosition, ∃ l, NumberText o p.ply.toNat l ∧ debugWith o p =
      ascii "PartialPosition { side: " ++ debugWith o p.side ++ ascii ", ply: " ++ l ++
      ascii ", hands: " ++ listText (p.hands.toList.map (debugWith o)) ++
      ascii ", board: " ++ listText (p.board.toList.map (debugWith o)) ++
      ascii ", player_bb: " ++ listText (p.player_bb.toList.map (debugWith o)) ++
      ascii ", piece_bb: " ++ listText (p.piece_bb.toList.map (debugWith o)) ++
      ascii ", last_move: " ++ debugWith o p.last_move ++
      ascii ", king_square: " ++ listText (p.king_square.toList.map (debugWith o)) ++ ascii " }") ∧
    (∀ p : Position, debugWith o p =
      ascii "Position { initial: " ++ debugWith o p.initial ++ ascii ", inner: " ++ debugWith o p.inner ++
      ascii ", moves: " ++ listText (p.moves.map (debugWith o)) ++ ascii " }") ∧
    (∀ g : PartialGame, debugWith o g = ascii "PartialGame { inner: " ++ debugWith o g.inner ++
      ascii ", resolution: " ++ debugWith o g.resolution ++ ascii " }") ∧
    (∀ g : Game, debugWith o g = ascii "Game { inner: " ++ debugWith o g.inner ++
      ascii ", resolution: " ++ debugWith o g.resolution ++ ascii " }") := by
  have d : ∀ {α : Type} [Debug α] (a : α), debugWith o a = (Debug.tree a).compact o := by
    intro α _ a; rw [debugWith, ha]; rfl
  have es : ∀ l : List DTree, (DEntries.ofList l).compact o .list =
      ((l.map (DTree.compact o)).intersperse (ascii ", ")).flatten := by
    intro l
    induction l with
    | nil => rfl
    | cons t r ih =>
      cases r with
      | nil => simp [DEntries.ofList, DEntries.compact, DKind.label]
      | cons t' r =>
        rw [DEntries.ofList] at ih
        rw [DEntries.ofList, DEntries.ofList, DEntries.compact, ih]
        simp [DKind.label]
  have ls : ∀ {α : Type} [Debug α] (l : List α), listText (l.map (debugWith o)) =
      (Debug.tree l).compact o := by
    intro α _ l
    show _ = DTree.compact o (.node .list [] (.ofList (l.map Debug.tree)))
    rw [DTree.compact, es, List.map_map, List.nil_append, listText]
    rw [List.map_congr_left fun a _ => d a]; rfl
  refine ⟨fun s t pr => ⟨_, pad_text o _, ?_⟩, fun x t => ?_,
    fun p => ⟨_, integer_text o _, ?_⟩, fun p => ?_, fun g => ?_, fun g => ?_⟩
  · simp only [d]
    show DTree.compact o (.node .struct (ascii "Normal") (.cons (ascii "from") (Debug.tree s)
      (.cons (ascii "to") (Debug.tree t) (.cons (ascii "promote") (Debug.tree pr) .nil)))) = _
    rw [DTree.compact, DEntries.compact, DEntries.compact, DEntries.compact]
    simp only [DKind.label, List.append_assoc]; rfl
  · simp only [d]
    show DTree.compact o (.node .struct (ascii "Drop") (.cons (ascii "piece") (Debug.tree x)
      (.cons (ascii "to") (Debug.tree t) .nil))) = _
    rw [DTree.compact, DEntries.compact, DEntries.compact]
    simp only [DKind.label, List.append_assoc]; rfl
  · rw [ls, ls, ls, ls, ls]
    simp only [d]
    show DTree.compact o (DTree.struct "PartialPosition" _) = _
    simp only [DTree.struct, List.map_cons, List.map_nil, DEntries.ofFields, DTree.compact,
      DEntries.compact, DKind.label]
    simp only [List.append_assoc]
    rfl
  · rw [ls]
    simp only [d]
    show DTree.compact o (DTree.struct "Position" _) = _
    simp only [DTree.struct, List.map_cons, List.map_nil, DEntries.ofFields, DTree.compact,
      DEntries.compact, DKind.label]
    simp only [List.append_assoc]
    rfl
  · simp only [d]
    show DTree.compact o (DTree.struct "PartialGame" _) = _
    simp only [DTree.struct, List.map_cons, List.map_nil, DEntries.ofFields, DTree.compact,
      DEntries.compact, DKind.label]
    simp only [List.append_assoc]
    rfl
  · simp only [d]
    show DTree.compact o (DTree.struct "Game" _) = _
    simp only [DTree.struct, List.map_cons, List.map_nil, DEntries.ofFields, DTree.compact,
      DEntries.compact, DKind.label]
    simp only [List.append_assoc]
    rfl

private theorem adapter_line : ∀ (l : List U8), asciiByte '\n' ∉ l → ∀ r,
    padAdapter false (l ++ r) = l ++ padAdapter false r
  | [], _, _ => rfl
  | b :: l, h, r => by
    rw [List.cons_append, padAdapter, beq_eq_false_iff_ne.2 fun e => h (by rw [e]; simp),
      adapter_line l (fun c => h (by simp [c])) r]
    rfl

/-- C89: under `#`, every number stands on a line of its own, behind four spaces for every bracket around
it (unless the fill character is a line break). -/
theorem C89_lines (o : FmtOpts) (ha : o.alternate = true) (hf : asciiByte '\n' ∉ o.fill) :
    (∀ s : Square, ∃ l, NumberText o s.val.toNat l ∧
      debugWith o s = ascii "Square(\n    " ++ l ++ ascii ",\n)") ∧
    (∀ x : Piece, ∃ l, NumberText o x.val.toNat l ∧
      debugWith o x = ascii "Piece(\n    " ++ l ++ ascii ",\n)") ∧
    (∀ b : Bitboard, ∃ l l', NumberText o b.w0.toNat l ∧ NumberText o b.w1.toNat l' ∧
      debugWith o b = ascii "Bitboard(\n    [\n        " ++ l ++ ascii ",\n        " ++ l' ++
        ascii ",\n    ],\n)") := by
  have nn : ∀ n, asciiByte '\n' ∉ o.integer n ∧ o.integer n ≠ [] := by
    intro n
    obtain ⟨i, k, j, e⟩ := integer_shape o n
    have w := wordy_append (leadText_wordy o) (wordy_append (zero_wordy k) (digitsText_wordy o.hex n))
    have f0 : ∀ i, asciiByte '\n' ∉ (List.replicate i o.fill).flatten := fun i m => by
      obtain ⟨l, hl, m⟩ := List.mem_flatten.1 m
      rw [(List.mem_replicate.1 hl).2] at m; exact hf m
    rw [e]
    refine ⟨fun m => ?_, fun m => ?_⟩
    · rcases List.mem_append.1 m with m | m
      · rcases List.mem_append.1 m with m | m
        · exact f0 i m
        · exact absurd (w _ m) (by decide)
      · exact f0 j m
    · have m := (List.append_eq_nil_iff.1 (List.append_eq_nil_iff.1 m).1).2
      exact digitsText_ne _ _ (List.append_eq_nil_iff.1 (List.append_eq_nil_iff.1 m).2).2
  have line : ∀ n r, padAdapter true (o.integer n ++ r) =
      ascii "    " ++ o.integer n ++ padAdapter false r := by
    intro n r
    obtain ⟨a, b⟩ := nn n
    generalize o.integer n = l at a b
    cases l with
    | nil => exact absurd rfl b
    | cons c l =>
      rw [List.cons_append, padAdapter, beq_eq_false_iff_ne.2 fun e => a (by rw [e]; simp),
        adapter_line l (fun m => a (by simp [m])) r]
      rfl
  have nt : ∀ {α : Type} [Debug α] (a : α) (name : String) (n : Nat), Debug.tree a = .newtype name (.int n) →
      debugWith o a = ascii name ++ ascii "(\n    " ++ o.integer n ++ ascii ",\n)" := by
    intro α _ a name n e
    rw [debugWith, ha, if_pos rfl, e]
    simp only [DTree.newtype, DTree.pretty, DEntries.ofList, DEntries.pretty, DKind.label,
      List.nil_append, line, List.append_assoc]
    rfl
  refine ⟨fun s => ⟨_, integer_text o _, nt s "Square" _ rfl⟩,
    fun x => ⟨_, integer_text o _, nt x "Piece" _ rfl⟩,
    fun b => ⟨_, _, integer_text o _, integer_text o _, ?_⟩⟩
  rw [debugWith, ha, if_pos rfl]
  show DTree.pretty o (.newtype "Bitboard" (.node .list [] (.ofList [.int _, .int _]))) = _
  simp only [DTree.newtype, DTree.pretty, DEntries.ofList, DEntries.pretty, DKind.label,
    List.nil_append, List.append_nil, line]
  have l4 : ∀ (r : List U8), padAdapter true (ascii "    " ++ r) =
      ascii "        " ++ padAdapter false r := fun r => rfl
  have nx : ∀ r : List U8, padAdapter false (ascii ",\n" ++ r) = ascii ",\n" ++ padAdapter true r := fun r => rfl
  have st : ∀ r : List U8, padAdapter true (ascii "[\n" ++ r) = ascii "    [\n" ++ padAdapter true r := fun r => rfl
  simp only [List.append_assoc, show padAdapter false (ascii ",\n") = ascii ",\n" from rfl]
  rw [st, l4, adapter_line _ (nn _).1, nx, l4, adapter_line _ (nn _).1, nx]
  simp only [List.append_assoc]
  rfl

/-- C89: names of variants ignore every option; `None` as well. -/
theorem C89_names (o : FmtOpts) :
    (∀ a : Color, debugWith o a = debugText a) ∧ (∀ a : PieceKind, debugWith o a = debugText a) ∧
    (∀ a : GameResolution, debugWith o a = debugText a) ∧
    (∀ a : IllegalMoveKind, debugWith o a = debugText a) ∧
    (∀ a : PositionStatus, debugWith o a = debugText a) ∧
    debugWith o (none : Option Move) = ascii "None" := by
  have w : ∀ {α : Type} [Debug α] (a : α) (l : List U8), Debug.tree a = .word l → debugWith o a = l := by
    intro α _ a l e
    rw [debugWith, e]; cases o.alternate <;> rfl
  refine ⟨fun a => ?_, fun a => ?_, fun a => ?_, fun a => ?_, fun a => ?_, w _ _ rfl⟩ <;>
    cases a <;> exact w _ _ rfl

/-- C89: options that a program can choose so that texts do not tell values apart: precision 0 hides
whether a move promotes, and the fill character `1` hides which square it is. -/
theorem C89_unreadable :
    (∀ s t, debugWith { precision := some 0 } (Move.Normal s t true) =
      debugWith { precision := some 0 } (Move.Normal s t false)) ∧
    debugWith { fill := ascii "1", width := some 2 } (Square.mk 1) =
      debugWith { fill := ascii "1", width := some 2 } (Square.mk 11) := by
  refine ⟨fun s t => ?_, by decide +kernel⟩
  have k : ∀ b : Bool, DTree.compact { precision := some 0 } (Debug.tree b) = [] := by
    intro b; cases b <;> decide
  show DTree.compact _ (.node .struct (ascii "Normal") (.cons (ascii "from") (Debug.tree s)
      (.cons (ascii "to") (Debug.tree t) (.cons (ascii "promote") (Debug.tree true) .nil)))) =
    DTree.compact _ (.node .struct (ascii "Normal") (.cons (ascii "from") (Debug.tree s)
      (.cons (ascii "to") (Debug.tree t) (.cons (ascii "promote") (Debug.tree false) .nil))))
  simp only [DTree.compact, DEntries.compact, k]

/-! Cases. -/

/-- `{:*^+#7X?}` and `{:05?}` are readable. -/
example : FmtOpts.Readable ⟨true, some 7, none, ascii "*", some .Center, true, false, some true⟩ ∧
    FmtOpts.Readable { width := some 5, zero := true } :=
  ⟨⟨by decide, nofun⟩, ⟨by decide, nofun⟩⟩

example :
    debugWith { width := some 4, zero := true } (Square.mk 81) = ascii "Square(0081)" ∧
    debugWith { width := some 4 } (Square.mk 81) = ascii "Square(  81)" ∧
    debugWith { width := some 5, fill := ascii "*", align := some .Center } (Square.mk 81) =
      ascii "Square(*81**)" ∧
    debugWith { hex := some false } (Bitboard.mk 255 48879) = ascii "Bitboard([ff, beef])" ∧
    debugWith { hex := some true, alternate := true, plus := true, width := some 7, zero := true }
      (Piece.mk 30) = ascii "Piece(\n    +0x001E,\n)" ∧
    debugWith { width := some 6, precision := some 3 } (Move.Normal ⟨61⟩ ⟨60⟩ false) =
      ascii "Normal { from: Square(    61), to: Square(    60), promote: fal    }" ∧
    debugWith { width := some 9 } Color.Black = ascii "Black" := by decide +kernel

example : debugText (Move.Normal ⟨61⟩ ⟨60⟩ false) =
    ascii "Normal { from: Square(61), to: Square(60), promote: false }" := by decide +kernel

example : debugPretty (some (Move.Drop ⟨17⟩ ⟨5⟩)) =
    ascii ("Some(\n    Drop {\n        piece: Piece(\n            17,\n        ),\n" ++
      "        to: Square(\n            5,\n        ),\n    },\n)") := by decide +kernel

example : debugText Hand.new = ascii "Hand([0, 0, 0, 0, 0, 0, 0, 0])" ∧
    debugPretty (Bitboard.mk 1 2) = ascii "Bitboard(\n    [\n        1,\n        2,\n    ],\n)" ∧
    debugText ([] : List Move) = ascii "[]" ∧ debugPretty ([] : List Move) = ascii "[]" ∧
    debugText (none : Option Piece) = ascii "None" := by decide +kernel

/-- Positions that differ in the number of the move only. -/
example : debugText (PartialPosition.empty) ≠ debugText { PartialPosition.empty with ply := 11 } := by
  intro e
  exact absurd ((C78_positions.1.text _ _).2 e) (by decide +kernel)

end ShogiCore
