import Verif.Lemmas.Features
import Verif.Props.Header

/- C90: what a build contains under every choice of features. -/

namespace ShogiCore

/-! ### Cargo -/

/-- C90: of the features of shogi_core, exactly those asked for are on, and `alloc` if `std` is
asked for.  Asking for more never turns one off, and asking again for what is on changes nothing.
By default `std` and `alloc` are on, in the C library as well. -/
theorem C90_cargo :
    (∀ asked f, f ∈ cargo asked ↔ f ∈ asked ∨ f = .alloc ∧ .std ∈ asked) ∧
    (∀ asked more f, (∀ g ∈ asked, g ∈ more) → f ∈ cargo asked → f ∈ cargo more) ∧
    (∀ asked f, f ∈ cargo (cargo asked) ↔ f ∈ cargo asked) ∧
    (∀ f, f ∈ cargo defaultFeatures ↔ f = .std ∨ f = .alloc) ∧
    (∀ f, f ∈ cargoC defaultCFeatures [] ↔ f = .std ∨ f = .alloc) ∧
    (∀ c others f, f ∈ cargoC c others ↔ f ∈ cargo others ∨
      f = .alloc ∧ (.alloc ∈ c ∨ .std ∈ c) ∨ f = .std ∧ .std ∈ c ∨
      f = .experimental ∧ .experimental ∈ c) := by
  have key : ∀ asked f, f ∈ cargo asked ↔ f ∈ asked ∨ f = .alloc ∧ .std ∈ asked := by
    intro asked f
    unfold cargo
    rw [List.mem_append, List.mem_flatMap]
    refine or_congr Iff.rfl ⟨?_, ?_⟩
    · rintro ⟨g, hg, hf⟩
      cases g <;> simp_all [Feature.implies]
    · rintro ⟨rfl, h⟩
      exact ⟨.std, h, by simp [Feature.implies]⟩
  have asks : ∀ (c : List CFeature) f, f ∈ c.flatMap CFeature.asks ↔
      f = .alloc ∧ .alloc ∈ c ∨ f = .std ∧ .std ∈ c ∨ f = .experimental ∧ .experimental ∈ c := by
    intro c f
    rw [List.mem_flatMap]
    constructor
    · rintro ⟨g, hg, hf⟩
      cases g <;> simp_all [CFeature.asks]
    · rintro (⟨rfl, h⟩ | ⟨rfl, h⟩ | ⟨rfl, h⟩)
      · exact ⟨_, h, by simp [CFeature.asks]⟩
      · exact ⟨_, h, by simp [CFeature.asks]⟩
      · exact ⟨_, h, by simp [CFeature.asks]⟩
  refine ⟨key, ?_, ?_, ?_, ?_, ?_⟩
  · intro asked more f h hf
    rw [key] at hf ⊢
    exact hf.imp (h f) fun ⟨e, hs⟩ => ⟨e, h _ hs⟩
  · intro asked f
    rw [key (cargo asked), key, key]
    constructor
    · rintro ((h | h) | ⟨e, h | h⟩)
      · exact .inl h
      · exact .inr h
      · exact .inr ⟨e, h⟩
      · exact absurd h.1 (by decide)
    · exact .inl
  · intro f; cases f <;> decide
  · intro f; cases f <;> decide
  · intro c others f
    unfold cargoC
    rw [key, key, List.mem_append, List.mem_append, asks, asks]
    cases f <;> simp only [reduceCtorEq, false_and, true_and, or_false, false_or]
    · exact ⟨fun h => by rcases h with (h | h) | h | h <;> simp [h],
        fun h => by rcases h with (h | h) | h | h <;> simp [h]⟩
    · exact or_comm
    · exact or_comm

/-! ### shogi_core -/

/-- C90: under any features, whatever an item mentions is there. -/
theorem C90_closed (on : List Feature) : ∀ i ∈ present on, ∀ u ∈ i.uses,
    ∃ j ∈ present on, j.name = u := by
  intro i hi u hu
  rw [mem_present] at hi
  obtain ⟨j, hj, rfl, hn⟩ := items_closed i hi.1 u hu
  exact ⟨j, (mem_present on j).2 ⟨hj, fun f hf => hi.2 f (hn f hf)⟩, rfl⟩

/-- C90: more features never take an item away or replace it by another of the same name. -/
theorem C90_additive {on more : List Feature} (h : ∀ f ∈ on, f ∈ more) :
    (∀ i ∈ present on, i ∈ present more) ∧
    ∀ i ∈ present on, ∀ j ∈ present more, j.name = i.name → j = i := by
  have sub : ∀ i ∈ present on, i ∈ present more := by
    intro i hi
    rw [mem_present] at hi ⊢
    exact ⟨hi.1, fun f hf => h f (hi.2 f hf)⟩
  refine ⟨sub, fun i hi j hj e => ?_⟩
  exact inj_on_of_nodup items_nodup ((mem_present _ _).1 hj).1 ((mem_present _ _).1 hi).1 e

/-- C90: which features an item needs: `alloc` exactly if its definition comes down to the crate
`alloc`, `experimental` exactly if it is documented as such, `ord` and `hash` exactly if it compares
or hashes a type of the crate.  So nothing is missing from a build that it could have. -/
theorem C90_needs (on : List Feature) : ∀ i ∈ items, i ∈ present on ↔
    (Reaches i.name "alloc" → .alloc ∈ on) ∧
    (i.name ∈ experimentalNames → .experimental ∈ on) ∧
    (i.name ∈ comparable.map ("Ord for " ++ ·) → .ord ∈ on) ∧
    (i.name ∈ comparable.map ("Hash for " ++ ·) → .hash ∈ on) := by
  intro i hi
  obtain ⟨he, ho, hh, hs⟩ := items_other i hi
  have ha : .alloc ∈ i.cfg.needs ↔ Reaches i.name "alloc" := reaches_alloc i hi
  rw [mem_present, ← he, ← ho, ← hh, ← ha]
  constructor
  · rintro ⟨-, h⟩
    exact ⟨h _, h _, h _, h _⟩
  · rintro ⟨h1, h2, h3, h4⟩
    refine ⟨hi, fun f hf => ?_⟩
    cases f
    · exact h1 hf
    · exact h2 hf
    · exact h4 hf
    · exact h3 hf
    · exact absurd hf hs

/-- C90: the crate is the same with `std` as with `alloc`: it never uses std. -/
theorem C90_std (asked : List Feature) :
    present (cargo (.std :: asked)) = present (cargo (.alloc :: asked)) := by
  unfold present
  refine List.filter_congr fun i hi => ?_
  have hs := (items_other i hi).2.2.2
  have e : ∀ f ∈ i.cfg.needs, (f ∈ cargo (.std :: asked) ↔ f ∈ cargo (.alloc :: asked)) := by
    intro f hf
    rw [C90_cargo.1, C90_cargo.1]
    cases f <;> simp_all
  have := holds_iff (cargo (.std :: asked)) i.cfg (items_positive i hi)
  have := holds_iff (cargo (.alloc :: asked)) i.cfg (items_positive i hi)
  rw [Bool.eq_iff_iff]
  simp_all

/-- C90: the symbols of the library are those of C72: 84 with `alloc`, and without it those whose
functions do not mention `Position` or `Game`. -/
theorem C90_exports (on : List Feature) (s : String) :
    (∃ i ∈ present on, i.symbol = some s) ↔
      ∃ r ∈ exports, r.name = s ∧ (r.alloc = true → .alloc ∈ on) := by
  constructor
  · rintro ⟨i, hi, hs⟩
    rw [mem_present] at hi
    obtain ⟨r, hr, hn, ha⟩ := symbol_export i hi.1 s (by rw [hs]; rfl)
    exact ⟨r, hr, hn, fun h => hi.2 _ (ha h)⟩
  · rintro ⟨r, hr, rfl, ha⟩
    obtain ⟨i, hi, hs, hn⟩ := export_symbol r hr
    refine ⟨i, (mem_present _ _).2 ⟨hi, fun f hf => ?_⟩, hs⟩
    obtain ⟨h, rfl⟩ := hn f hf
    exact ha h

/-! ### Implementations of the traits -/

/-- C90: an implementation of `ToUsi` keeps compiling when features are added; one of
`LegalityChecker` written against some features compiles against others exactly if `alloc` is on in
both or in neither: with it there are two more methods to define. -/
theorem C90_implementors :
    (∀ on more ms, (∀ f ∈ on, f ∈ more) → Implements "ToUsi" on ms → Implements "ToUsi" more ms) ∧
    (∀ on more ms, Implements "LegalityChecker" on ms →
      (Implements "LegalityChecker" more ms ↔ (.alloc ∈ on ↔ .alloc ∈ more))) := by
  constructor
  · rintro on more ms h ⟨h1, h2⟩
    refine ⟨fun i hi hm hr => ?_, fun m hm => ?_⟩
    · have hin := ((mem_present _ _).1 hi).1
      have := toUsi_required i hin hm hr
      exact h1 i ((mem_present _ _).2 ⟨hin, by simp [this]⟩) hm hr
    · obtain ⟨i, hi, hn⟩ := h2 m hm
      exact ⟨i, (C90_additive h).1 i hi, hn⟩
  · intro on more ms hon
    have st : ∀ o, Implements "LegalityChecker" o ms →
        (.alloc ∈ o ↔ "LegalityChecker::status" ∈ ms) := by
      rintro o ⟨h1, h2⟩
      obtain ⟨s, hs, hsn, hsm, hsr, hsf⟩ := checker_status
      constructor
      · intro ha
        rw [← hsn]
        exact h1 s ((mem_present _ _).2 ⟨hs, by simp [hsf, ha]⟩) hsm hsr
      · intro hm
        obtain ⟨i, hi, hn, -⟩ := h2 _ hm
        have hi' := (mem_present _ _).1 hi
        have : i = s := inj_on_of_nodup items_nodup hi'.1 hs (hn.trans hsn.symm)
        subst this
        exact hi'.2 _ (by simp [hsf])
    constructor
    · intro hmore
      rw [st on hon, st more hmore]
    · intro e
      have same : ∀ i, i.methodOf "LegalityChecker" → (i ∈ present on ↔ i ∈ present more) := by
        intro i hm
        rw [mem_present, mem_present]
        refine and_congr_right fun hi => ?_
        have hn := checker_needs i hi hm
        constructor
        · intro h f hf
          have hfa := hn f hf
          subst hfa
          exact e.1 (h _ hf)
        · intro h f hf
          have hfa := hn f hf
          subst hfa
          exact e.2 (h _ hf)
      obtain ⟨h1, h2⟩ := hon
      refine ⟨fun i hi hm hr => h1 i ((same i hm).2 hi) hm hr, fun m hm => ?_⟩
      obtain ⟨i, hi, hn, hmm⟩ := h2 m hm
      exact ⟨i, (same i hmm).1 hi, hn, hmm⟩

/-! ### The C library -/

/-- C90: the C library links under any of its features when nothing else asks for features of
shogi_core.  It fails to exactly if another package of the build asks for `alloc` or `std` of
shogi_core while the C library has neither. -/
theorem C90_links (c : List CFeature) (others : List Feature) :
    Links c (cargoC c []) ∧
    (Links c (cargoC c others) ↔ .std ∈ c ∨ .alloc ∈ c ∨ .alloc ∉ others ∧ .std ∉ others) := by
  have key : ∀ core, Links c core ↔ .std ∈ c ∨ .alloc ∈ c ∨ .alloc ∉ core := by
    intro core
    by_cases hs : CFeature.std ∈ c <;> by_cases ha : CFeature.alloc ∈ c
    all_goals
      constructor
      · rintro ⟨h1, h2, h3, h4, h5⟩
        simp_all [CItem.there, CItem.cfg, Cfg.holds]
      · intro h
        constructor <;> simp_all [CItem.there, CItem.cfg, Cfg.holds]
  have mem := C90_cargo.2.2.2.2.2
  have cg := C90_cargo.1
  constructor
  · rw [key, mem]
    by_cases hs : CFeature.std ∈ c <;> by_cases ha : CFeature.alloc ∈ c <;> simp [hs, ha, cg]
  · rw [key, mem]
    by_cases hs : CFeature.std ∈ c <;> by_cases ha : CFeature.alloc ∈ c <;> simp [hs, ha, cg]

/-! ### The C header -/

/-- C90: with macros that fit the features of the library, the header declares the types and the
constants that the library has (`Option_Square` apart, which is no type of the crate), but it
declares all functions whatever the macros: those that mention `struct Position` or `struct Game`
are in the library only with `alloc`. -/
theorem C90_header {macros : List Macro} {on : List Feature} (h : Fits macros on) :
    (∀ t ∈ typedefs.map Prod.fst, t ≠ "Option_Square" →
      (t ∈ declared macros ↔ ∃ i ∈ present on, i.name = t)) ∧
    (∀ n ∈ constantNames, n.1 ∈ declared macros ↔ ∃ i ∈ present on, i.name = n.2) ∧
    (∀ p ∈ prototypes, (∃ i ∈ present on, i.symbol = some p.name) ↔
      .alloc ∈ on ∨ "Position" ∉ p.tags ∧ "Game" ∉ p.tags) := by
  refine ⟨fun t ht ho => ?_, fun n hn => ?_, fun p hp => ?_⟩
  · obtain ⟨i, hi, rfl, hg⟩ := typedef_item t ht ho
    rw [declared_iff _ _ (List.mem_append_left _ ht), present_name on i hi]
    exact guard_needs h hg
  · obtain ⟨hd, i, hi, e, hg⟩ := constant_item n hn
    rw [← e, declared_iff _ _ (List.mem_append_right _ hd), present_name on i hi]
    exact guard_needs h hg
  · rw [C90_exports]
    have link := C72_link.1 p hp
    constructor
    · rintro ⟨r, hr, e, ha⟩
      cases hra : r.alloc
      · exact .inr (link.1 ⟨r, hr, e, hra⟩)
      · exact .inl (ha hra)
    · rintro (ha | hf)
      · obtain ⟨r, hr, e, -⟩ := C72_prototypes (T := ⟨true, true⟩).2.2.2 p hp
        exact ⟨r, hr, e, fun _ => ha⟩
      · obtain ⟨r, hr, e, hra⟩ := link.2 hf
        exact ⟨r, hr, e, fun h => by rw [hra] at h; cases h⟩

/-! ### Cases -/

/-- A build with nothing but `ord`: positions on one board can be compared, but there is no
`Position`. -/
example : (∃ i ∈ present (cargo [.ord]), i.name = "Ord for PartialPosition") ∧
    ¬ (∃ i ∈ present (cargo [.ord]), i.name = "Position") ∧
    (∃ i ∈ present (cargo [.std]), i.name = "Position") := by decide +kernel

/-- A conclusion of `C90_needs` that is not obvious: comparing games needs two features. -/
example : Reaches "Ord for Game" "alloc" :=
  (reaches_alloc ⟨"Ord for Game", .plain, .and (.feature .alloc) (.feature .ord),
    ["Game", "Ord for Position", "Ord for OptionGameResolution"], none⟩ (by decide +kernel)).1
    (by decide)

/-- An implementation of `LegalityChecker` that a build without features accepts. -/
def smallChecker : List String := ["LegalityChecker::status_partial",
  "LegalityChecker::is_legal_partial", "LegalityChecker::is_legal_partial_lite",
  "LegalityChecker::normal_from_candidates", "LegalityChecker::normal_to_candidates",
  "LegalityChecker::drop_candidates"]

theorem small_implements : Implements "LegalityChecker" (cargo []) smallChecker := by
  unfold Implements
  decide +kernel

/-- Turning on the default features breaks it. -/
example : ¬ Implements "LegalityChecker" (cargo defaultFeatures) smallChecker := by
  rw [C90_implementors.2 _ _ _ small_implements]
  decide

/-- With `alloc` there are two more methods to define. -/
example : Implements "LegalityChecker" (cargo [.alloc]) ("LegalityChecker::status" ::
    "LegalityChecker::all_legal_moves_partial" :: smallChecker) := by
  unfold Implements
  decide +kernel

/-- Implementations of `ToUsi`. -/
example : Implements "ToUsi" (cargo []) ["ToUsi::to_usi"] := by
  unfold Implements
  decide +kernel

/-- The C library without features links alone, but not beside a package that asks for the default
features of shogi_core. -/
example : Links [] (cargoC [] []) ∧ ¬ Links [] (cargoC [] defaultFeatures) :=
  ⟨(C90_links [] []).1, fun h => by simpa [defaultFeatures] using (C90_links [] _).2.1 h⟩

/-- Macros that fit, and what they hide. -/
example : Fits [.DEFINE_EXPERIMENTAL] (cargo [.experimental, .hash]) ∧
    "Position" ∉ declared [.DEFINE_EXPERIMENTAL] ∧ "Piece_NUM" ∈ declared [.DEFINE_EXPERIMENTAL] := by
  unfold Fits
  decide +kernel

end ShogiCore
