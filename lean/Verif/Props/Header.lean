import Verif.Spec.Header
import Verif.Props.CStruct

/- C72: the C header describes the library. -/

set_option linter.unusedSectionVars false

namespace ShogiCore

/-- C72: the functions whose result the header declares with an incomplete type. -/
def brokenResults : List String := ["Square_from_u8", "Square_shift"]

/-- C72: the functions of types no C program can get a value of. -/
def orphans : List String := [
  "Game_position", "Game_resolution", "Game_resolve", "Game_unresolve",
  "PartialGame_position", "PartialGame_resolution", "PartialGame_resolve", "PartialGame_unresolve"]

/-- Every export with the prototype at the same place in the list. -/
theorem header_rows [T : Target] : ∀ hr ∈ prototypes.zip exports, hr.1.name = hr.2.name ∧
    (∀ a ∈ hr.1.args, (a.abi 5).isSome) ∧
    hr.1.params.map Prod.fst = hr.2.params.map Prod.fst ∧
      (∀ ar ∈ hr.1.args.zip hr.2.args, ar.1.mirrors ar.2 = true) ∧
      hr.1.args.map (HType.abi 5) = hr.2.args.map (RType.abi 5) ∧
    hr.2.ret.abi 5 ≠ none ∧
    (hr.1.name ∉ brokenResults →
        hr.1.ret.mirrors hr.2.ret = true ∧ hr.1.ret.abi 5 = hr.2.ret.abi 5) ∧
    (hr.1.name ∈ brokenResults → hr.1.ret.abi 5 = none ∧
      hr.2.ret.abi 5 = some (.scalar .u8 (.int false 1))) := by
  have h : ∀ e w, let T : Target := ⟨e, w⟩
    ∀ hr ∈ prototypes.zip exports, hr.1.name = hr.2.name ∧
    (∀ a ∈ hr.1.args, (a.abi 5).isSome) ∧
    hr.1.params.map Prod.fst = hr.2.params.map Prod.fst ∧
      (∀ ar ∈ hr.1.args.zip hr.2.args, ar.1.mirrors ar.2 = true) ∧
      hr.1.args.map (HType.abi 5) = hr.2.args.map (RType.abi 5) ∧
    hr.2.ret.abi 5 ≠ none ∧
    (hr.1.name ∉ brokenResults →
        hr.1.ret.mirrors hr.2.ret = true ∧ hr.1.ret.abi 5 = hr.2.ret.abi 5) ∧
    (hr.1.name ∈ brokenResults → hr.1.ret.abi 5 = none ∧
      hr.2.ret.abi 5 = some (.scalar .u8 (.int false 1))) := by
    decide +kernel
  exact h T.bigEndian T.wideAlign

theorem zip_left {α β : Type} {as : List α} {bs : List β} (h : as.length = bs.length) {a : α}
    (ha : a ∈ as) : ∃ b, (a, b) ∈ as.zip bs := by
  induction as generalizing bs with
  | nil => cases ha
  | cons x xs ih =>
    cases bs with
    | nil => cases h
    | cons y ys =>
      rcases List.mem_cons.1 ha with rfl | ha
      · exact ⟨y, List.mem_cons_self⟩
      · obtain ⟨b, hb⟩ := ih (Nat.succ.inj h) ha
        exact ⟨b, List.mem_cons_of_mem _ hb⟩

/-- C72: the prototypes of the header and the exported functions correspond: every prototype is
that of exactly one exported function, every exported function has exactly one prototype, no two
have the same name, the parameters have the same names in the same order and types of the same
names, and parameters and results are passed in the same way on both sides, whatever the platform; pointers point to the same struct and are `const` exactly if the function gets no
right to write.  The exceptions are the results of `Square_from_u8` and `Square_shift`: the
functions return a byte, but the header declares an incomplete struct. -/
theorem C72_prototypes [T : Target] :
    (prototypes.map HSig.name).Nodup ∧ (exports.map RSig.name).Nodup ∧
    (∀ r ∈ exports, ∃ h ∈ prototypes, h.name = r.name) ∧
    ∀ h ∈ prototypes, ∃ r ∈ exports, r.name = h.name ∧
      (∀ a ∈ h.args, (a.abi 5).isSome) ∧
      h.params.map Prod.fst = r.params.map Prod.fst ∧
      (∀ ar ∈ h.args.zip r.args, ar.1.mirrors ar.2 = true) ∧
      h.args.map (HType.abi 5) = r.args.map (RType.abi 5) ∧
      r.ret.abi 5 ≠ none ∧
      (h.name ∉ brokenResults →
        h.ret.mirrors r.ret = true ∧ h.ret.abi 5 = r.ret.abi 5) ∧
      (h.name ∈ brokenResults → h.ret.abi 5 = none ∧
        r.ret.abi 5 = some (.scalar .u8 (.int false 1))) := by
  refine ⟨by decide +kernel, by decide +kernel, by decide +kernel, fun h hh => ?_⟩
  obtain ⟨r, hr⟩ := zip_left (bs := exports) (by decide +kernel) hh
  have := header_rows _ hr
  exact ⟨r, (List.of_mem_zip hr).2, this.1.symm, this.2⟩

/-- The broken results are there. -/
example : brokenResults ⊆ prototypes.map HSig.name ∧ prototypes.length = 84 := by decide +kernel

/-- A case: `bool PartialPosition_make_compact_move(struct PartialPosition *, CompactMove)`. -/
example [Target] : ∃ h ∈ prototypes, h.name = "PartialPosition_make_compact_move" ∧
    h.args.map (HType.abi 5) = [some (.scalar ⟨8, 8⟩ (.ptr true "PartialPosition")),
      some (.scalar .u16 (.int false 2))] ∧ h.ret.abi 5 = some (.scalar .u8 .bool) :=
  ⟨⟨"PartialPosition_make_compact_move",
    [("self", .ptr false (.struct "PartialPosition")), ("mv", .named "CompactMove")], .bool⟩,
    by decide +kernel, rfl, by rfl, by rfl⟩

/-- C72: the structs that the header defines have the members of the Rust structs and are laid out
as rustc lays them out, down to the elementary parts; the others are exactly those types of the crate whose layout is unspecified (and
the stray `Option_Square`), so C programs can only have pointers to them. -/
theorem C72_structs [T : Target] :
    (∀ s ∈ ["Bitboard", "Hand", "PartialPosition"],
      (HType.struct s).abi 5 ≠ none ∧ (HType.struct s).abi 5 = (RType.path s).abi 5 ∧
        ∃ ms fs, structs.lookup s = some ms ∧ rustTypes.lookup s = some (.reprC fs) ∧
          ms.length = fs.length ∧ ∀ mf ∈ ms.zip fs, mirrorsField mf.1 mf.2 = true) ∧
    (∀ s ∈ ["Game", "PartialGame", "Position"],
      (HType.struct s).abi 5 = none ∧ (RType.path s).abi 5 = none) ∧
    ((HType.struct "PartialPosition").abi 5).map Abi.ty = some PartialPosition.ty ∧
    ((HType.struct "Hand").abi 5).map Abi.ty = some Hand.ty ∧
    ((HType.struct "Bitboard").abi 5).map Abi.ty = some Bitboard.ty := by
  have h : ∀ e w, let T : Target := ⟨e, w⟩
      (∀ s ∈ ["Bitboard", "Hand", "PartialPosition"],
        (HType.struct s).abi 5 ≠ none ∧ (HType.struct s).abi 5 = (RType.path s).abi 5) ∧
      (∀ s ∈ ["Game", "PartialGame", "Position"],
        (HType.struct s).abi 5 = none ∧ (RType.path s).abi 5 = none) ∧
      ((HType.struct "PartialPosition").abi 5).map Abi.ty = some PartialPosition.ty ∧
      ((HType.struct "Hand").abi 5).map Abi.ty = some Hand.ty ∧
      ((HType.struct "Bitboard").abi 5).map Abi.ty = some Bitboard.ty := by
    decide +kernel
  obtain ⟨h1, h2⟩ := h T.bigEndian T.wideAlign
  refine ⟨fun s hs => ⟨(h1 s hs).1, (h1 s hs).2, ?_⟩, h2⟩
  simp only [List.mem_cons, List.not_mem_nil, or_false] at hs
  rcases hs with rfl | rfl | rfl
  all_goals exact ⟨_, _, rfl, rfl, by decide +kernel, by decide +kernel⟩

theorem mem_of_lookup {α β : Type} [BEq α] [LawfulBEq α] {l : List (α × β)} {a : α} {b : β}
    (h : l.lookup a = some b) : (a, b) ∈ l := by
  induction l with
  | nil => cases h
  | cons x xs ih =>
    obtain ⟨c, d⟩ := x
    rw [List.lookup_cons] at h
    by_cases e : a == c
    · rw [e] at h
      simp only [Option.some.injEq] at h
      rw [eq_of_beq e, h]; exact List.mem_cons_self
    · rw [Bool.not_eq_true] at e
      rw [e] at h
      exact List.mem_cons_of_mem _ (ih h)

theorem enum_agrees {α : Type} {e : String} {ident : α → String} {value : α → U8}
    {decode : U8 → Res α} {l : List (String × Nat)} {all : List α} (hl : enums.lookup e = some l)
    (h1 : ∀ a, l.lookup (ident a) = some (value a).toNat)
    (h2 : ∀ p ∈ l, p.1 ∈ all.map ident)
    (h3 : ∀ p ∈ l, l.lookup p.1 = some p.2)
    (h4 : ∀ v : U8, v.toNat ∈ l.map Prod.snd ↔ decode v ≠ .ub) :
    EnumAgrees e ident value decode := by
  have he : ∀ n, enumerator e n = l.lookup n := fun n => by unfold enumerator; rw [hl]; rfl
  refine ⟨fun a => by rw [he, h1], fun n v h => ?_, fun v => ?_⟩
  · rw [he] at h
    obtain ⟨a, _, ha⟩ := List.mem_map.1 (h2 _ (mem_of_lookup h))
    exact ⟨a, ha.symm⟩
  · rw [← h4]
    constructor
    · rintro ⟨n, h⟩
      rw [he] at h
      exact List.mem_map.2 ⟨_, mem_of_lookup h, rfl⟩
    · intro h
      obtain ⟨p, hp, hv⟩ := List.mem_map.1 h
      exact ⟨p.1, by rw [he, h3 p hp, hv]⟩

/-- C72: each enumerator of the header has the value of the Rust variant of that name, the header
has no others, and the values it names are exactly the bytes that are valid for the Rust type. -/
theorem C72_enumerators :
    EnumAgrees "Color" Color.ident Color.toU8 Color.transmute ∧
    EnumAgrees "GameResolution" GameResolution.ident GameResolution.toU8
      GameResolution.from_u8_unchecked ∧
    EnumAgrees "IllegalMoveKind" IllegalMoveKind.ident IllegalMoveKind.toU8
      IllegalMoveKind.from_u8_unchecked ∧
    EnumAgrees "PieceKind" PieceKind.ident PieceKind.toU8 PieceKind_from_u8_unchecked := by
  refine ⟨enum_agrees (all := Color.all) rfl (fun a => by cases a <;> decide +kernel)
      (by decide +kernel) (by decide +kernel) (by decide +kernel),
    enum_agrees (all := [.BlackWins, .WhiteWins, .Draw, .Rematch, .Aborted]) rfl
      (fun a => by cases a <;> decide +kernel) (by decide +kernel) (by decide +kernel)
      (by decide +kernel),
    enum_agrees (all := [.TwoPawns, .IgnoredCheck, .DropPawnMate, .DropStuck, .NormalStuck,
      .GameFinished, .IncorrectMove]) rfl (fun a => by cases a <;> decide +kernel)
      (by decide +kernel) (by decide +kernel) (by decide +kernel),
    enum_agrees (all := PieceKind.all) rfl (fun a => by cases a <;> decide +kernel)
      (by decide +kernel) (by decide +kernel) (by decide +kernel)⟩

/-- C72: the constants of the header are those of the crate, and they are what one needs: the
number of colours, squares and hand pieces, and room for every index of `Piece::array_index` and
for `PieceKind`s and none. -/
theorem C72_constants [Profile] :
    defines = [("Color_NUM", Color.NUM), ("PieceKind_OPTION_NUM", PieceKind.OPTION_NUM),
      ("Square_NUM", Square.NUM), ("Piece_NUM", Piece.NUM),
      ("Hand_NUM_HAND_PIECES", Hand.NUM_HAND_PIECES)] ∧
    Color.all.length = Color.NUM ∧
    (∀ k : PieceKind, k.toU8.toNat < PieceKind.OPTION_NUM) ∧
    (∀ s : Square, s.Valid → s.val.toNat ≤ Square.NUM) ∧
    (∀ p : Piece, p.Valid → ∃ i, p.array_index = .ok i ∧ i.toNat < Piece.NUM) := by
  refine ⟨rfl, rfl, fun k => by cases k <;> decide, ?_, ?_⟩
  · intro s hs
    unfold Square.Valid at hs
    exact hs.2
  · intro p hp
    obtain ⟨i, h, hi, _⟩ := C07_array_index p hp
    exact ⟨i, h, hi⟩

/-- C72: no two things that the header declares have the same name. -/
theorem C72_names : headerIdents.Nodup ∧ headerTags.Nodup := by decide +kernel

/-- C72: without feature `alloc` the prototypes that mention `struct Position` or `struct Game`
are declared all the same, but there is no such function in the library; with it all are there. -/
theorem C72_link :
    (∀ h ∈ prototypes, (∃ r ∈ exports, r.name = h.name ∧ r.alloc = false) ↔
      "Position" ∉ h.tags ∧ "Game" ∉ h.tags) ∧
    (∃ h ∈ prototypes, "Position" ∈ h.tags ∨ "Game" ∈ h.tags) := by
  decide +kernel

/-! ### What a C program can call -/

/-- The structs of which no C program has a value or a pointer. -/
def unreachableTags : List String := ["Game", "PartialGame", "Option_Square"]

/-- The type does not involve them. -/
def HType.free (t : HType) : Bool := t.norm.tags.all fun s => !unreachableTags.contains s

theorem complete_free {t : HType} (hc : t.complete = true) (hp : t.pointers = false) :
    t.free = true := by
  induction t with
  | named n =>
    have key : ∀ p ∈ typedefs, (HType.named p.1).complete = true →
        (HType.named p.1).free = true := by decide +kernel
    cases hl : typedefs.lookup n with
    | none => unfold HType.complete at hc; rw [hl] at hc; cases hc
    | some t => exact key (n, t) (mem_of_lookup hl) hc
  | struct s =>
    have key : ∀ p ∈ structs, (HType.struct p.1).free = true := by decide +kernel
    obtain ⟨ms, hl⟩ := Option.isSome_iff_exists.1 hc
    exact key (s, ms) (mem_of_lookup hl)
  | arr n t ih => exact ih hc hp
  | ptr ro t => cases hp
  | _ => rfl

theorem cHas_free {t : HType} (h : CHas t) : t.free = true := by
  induction h with
  | @var t hc hp => exact complete_free hc hp
  | @addr t hc hp => exact (complete_free hc hp : t.free = true)
  | @const t _ ih => exact ih
  | @deref ro t _ _ ih => exact ih
  | @member s ms f t _ hs hm ih =>
    have : ∀ sm ∈ structs, ∀ m ∈ sm.2, m.2.free = true := by decide +kernel
    exact this _ hs _ hm
  | @index n t _ ih => exact ih
  | @conv t t' _ e ih => unfold HType.free at ih ⊢; rw [← e]; exact ih
  | @call h hh _ hc ih =>
    have : ∀ h ∈ prototypes, (∀ a ∈ h.args, a.free = true) → h.ret.complete →
        h.ret.free = true := by decide +kernel
    exact this h hh ih hc

/-- Types with values at hand. -/
def HType.easy : HType → Bool
  | .ptr _ (.struct "Position") => true
  | .ptr _ t => t.complete && !t.pointers
  | t => t.complete && !t.pointers

theorem cHas_position : CHas (.ptr false (.struct "Position")) :=
  .call (h := ⟨"Position_startpos", [], .ptr false (.struct "Position")⟩) (by decide +kernel)
    (fun _ h => nomatch h) rfl

theorem cHas_easy {t : HType} (h : t.easy = true) : CHas t := by
  unfold HType.easy at h
  split at h
  · rename_i ro
    cases ro
    · exact cHas_position
    · exact .const cHas_position
  · rename_i ro t _
    simp only [Bool.and_eq_true, Bool.not_eq_true'] at h
    cases ro
    · exact .addr h.1 h.2
    · exact .const (.addr h.1 h.2)
  · simp only [Bool.and_eq_true, Bool.not_eq_true'] at h
    exact .var h.1 h.2

/-- C72: which functions a C program can call without casts and null pointers: all but the two
with a broken result type and the eight on games, because nothing in the header gives a C program a
`Game` or a `PartialGame`, or a pointer to one. -/
theorem C72_callable :
    (∀ h ∈ prototypes, h.Callable ↔ h.name ∉ brokenResults ∧ h.name ∉ orphans) ∧
    ∀ t, CHas t → ∀ s ∈ t.norm.tags, s ∉ ["Game", "PartialGame", "Option_Square"] := by
  have key : ∀ h ∈ prototypes, ((∀ a ∈ h.args, a.free = true) ∧
      (h.ret = .void ∨ h.ret.complete = true) → h.name ∉ brokenResults ∧ h.name ∉ orphans) ∧
      (h.name ∉ brokenResults ∧ h.name ∉ orphans → (∀ a ∈ h.args, a.easy = true) ∧
      (h.ret = .void ∨ h.ret.complete = true)) := by
    decide +kernel
  refine ⟨fun h hh => ⟨fun hc => (key h hh).1 ⟨fun a ha => cHas_free (hc.1 a ha), hc.2⟩,
    fun hn => ?_⟩, fun t ht s hs => ?_⟩
  · have := (key h hh).2 hn
    exact ⟨fun a ha => cHas_easy (this.1 a ha), this.2⟩
  · have := List.all_eq_true.1 (cHas_free ht) s hs
    intro h
    rw [Bool.not_eq_true', ← Bool.not_eq_true, List.contains_iff_mem] at this
    exact this h

/-- There are ten that cannot be called, 74 that can; a copy of the position behind a handle can be
had. -/
example : (prototypes.filter fun h => h.name ∈ brokenResults ∨ h.name ∈ orphans).length = 10 ∧
    (prototypes.filter fun h => ¬(h.name ∈ brokenResults ∨ h.name ∈ orphans)).length = 74 ∧
    CHas (.struct "PartialPosition") :=
  ⟨by decide +kernel, by decide +kernel,
    .deref (.call (h := ⟨"Position_inner", [("self", .ptr true (.struct "Position"))],
      .ptr true (.struct "PartialPosition")⟩) (by decide +kernel)
      (fun a ha => by
        rw [List.mem_singleton.1 ha]; exact .const cHas_position) rfl) (by decide +kernel)⟩

end ShogiCore
