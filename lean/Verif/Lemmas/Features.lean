import Verif.Spec.Features

/- Lemmas about features: conditions without negation, and tables of the items. -/

namespace ShogiCore

/-- The features a condition without negation asks for. -/
def Cfg.needs {φ : Type} : Cfg φ → List φ
  | .always => []
  | .feature f => [f]
  | .and a b => a.needs ++ b.needs
  | .not _ => []

/-- No negation. -/
def Cfg.positive {φ : Type} : Cfg φ → Bool
  | .always | .feature _ => true
  | .and a b => a.positive && b.positive
  | .not _ => false

theorem holds_iff {φ : Type} [DecidableEq φ] (on : List φ) (c : Cfg φ) (h : c.positive = true) :
    c.holds on = true ↔ ∀ f ∈ c.needs, f ∈ on := by
  induction c with
  | always => simp [Cfg.holds, Cfg.needs]
  | feature f => simp [Cfg.holds, Cfg.needs]
  | and a b iha ihb =>
    simp only [Cfg.positive, Bool.and_eq_true] at h
    simp only [Cfg.holds, Bool.and_eq_true, Cfg.needs, List.mem_append, iha h.1, ihb h.2]
    exact ⟨fun ⟨p, q⟩ f hf => hf.elim (p f) (q f), fun p => ⟨fun f hf => p f (.inl hf),
      fun f hf => p f (.inr hf)⟩⟩
  | not a => simp [Cfg.positive] at h

theorem items_positive : ∀ i ∈ items, i.cfg.positive = true := by decide +kernel

/-- When an item is there. -/
theorem mem_present (on : List Feature) (i : Item) :
    i ∈ present on ↔ i ∈ items ∧ ∀ f ∈ i.cfg.needs, f ∈ on := by
  unfold present
  rw [List.mem_filter]
  exact ⟨fun ⟨h, p⟩ => ⟨h, (holds_iff on _ (items_positive i h)).1 p⟩,
    fun ⟨h, p⟩ => ⟨h, (holds_iff on _ (items_positive i h)).2 p⟩⟩

/-- Every mentioned item is there whenever the item that mentions it is. -/
theorem items_closed : ∀ i ∈ items, ∀ u ∈ i.uses, ∃ j ∈ items, j.name = u ∧
    ∀ f ∈ j.cfg.needs, f ∈ i.cfg.needs := by
  decide +kernel

/-- Whoever mentions an item that needs `alloc` needs it too. -/
theorem items_up : ∀ j ∈ items.filter (fun j => j.cfg.needs.contains .alloc), ∀ i ∈ items,
    j.name ∈ i.uses → .alloc ∈ i.cfg.needs := by
  decide +kernel

/-- Why an item needs `alloc`. -/
theorem items_down : ∀ i ∈ items, .alloc ∈ i.cfg.needs → i.name = "alloc" ∨ "alloc" ∈ i.uses ∨
    "Position" ∈ i.uses ∨ "Game" ∈ i.uses := by
  decide +kernel

/-- The other features. -/
theorem items_other : ∀ i ∈ items,
    (.experimental ∈ i.cfg.needs ↔ i.name ∈ experimentalNames) ∧
    (.ord ∈ i.cfg.needs ↔ i.name ∈ comparable.map ("Ord for " ++ ·)) ∧
    (.hash ∈ i.cfg.needs ↔ i.name ∈ comparable.map ("Hash for " ++ ·)) ∧
    .std ∉ i.cfg.needs := by
  decide +kernel

theorem items_nodup : (items.map Item.name).Nodup := by decide +kernel

theorem inj_on_of_nodup {l : List Item} (h : (l.map Item.name).Nodup) {i j : Item} (hi : i ∈ l)
    (hj : j ∈ l) (e : i.name = j.name) : i = j := by
  induction l with
  | nil => cases hi
  | cons a l ih =>
    rw [List.map_cons, List.nodup_cons] at h
    rcases List.mem_cons.1 hi with rfl | hi' <;> rcases List.mem_cons.1 hj with rfl | hj'
    · rfl
    · exact absurd (e ▸ List.mem_map_of_mem hj') h.1
    · exact absurd (e ▸ List.mem_map_of_mem hi') h.1
    · exact ih h.2 hi' hj'

theorem position_alloc : ∃ i ∈ items, i.name = "Position" ∧ "alloc" ∈ i.uses := by decide +kernel

theorem game_position : ∃ i ∈ items, i.name = "Game" ∧ "Position" ∈ i.uses := by decide +kernel

theorem alloc_item : ∃ i ∈ items, i.name = "alloc" ∧ .alloc ∈ i.cfg.needs := by decide +kernel

/-- An item needs `alloc` exactly if it comes down to the crate `alloc`. -/
theorem reaches_alloc (i : Item) (hi : i ∈ items) :
    .alloc ∈ i.cfg.needs ↔ Reaches i.name "alloc" := by
  constructor
  · intro h
    have pos : Reaches "Position" "alloc" := by
      obtain ⟨j, hj, e, hu⟩ := position_alloc
      rw [← e]
      exact .step hj hu (.refl _)
    have game : Reaches "Game" "alloc" := by
      obtain ⟨j, hj, e, hu⟩ := game_position
      rw [← e]
      exact .step hj hu pos
    rcases items_down i hi h with e | hu | hu | hu
    · rw [e]; exact .refl _
    · exact .step hi hu (.refl _)
    · exact .step hi hu pos
    · exact .step hi hu game
  · intro h
    have key : ∀ n v, Reaches n v → v = "alloc" → ∀ j ∈ items, j.name = n →
        .alloc ∈ j.cfg.needs := by
      intro n v h
      induction h with
      | refl n =>
        rintro rfl j hj e
        obtain ⟨k, hk, ek, hn⟩ := alloc_item
        rw [inj_on_of_nodup items_nodup hj hk (e.trans ek.symm)]
        exact hn
      | @step k u v hk hu _ ih =>
        intro hv j hj e
        rw [inj_on_of_nodup items_nodup hj hk e]
        obtain ⟨l, hl, el, -⟩ := items_closed k hk u hu
        refine items_up l ?_ k hk (el ▸ hu)
        rw [List.mem_filter, List.contains_iff_mem]
        exact ⟨hl, ih hv l hl el⟩
    exact key _ _ h rfl i hi rfl

/-! ### Symbols -/

theorem symbol_export : ∀ i ∈ items, ∀ s ∈ i.symbol, ∃ r ∈ exports, r.name = s ∧
    (r.alloc = true → .alloc ∈ i.cfg.needs) := by
  have h : ∀ i ∈ items, ∀ s ∈ i.symbol.toList, ∃ r ∈ exports, r.name = s ∧
      (r.alloc = true → .alloc ∈ i.cfg.needs) := by
    decide +kernel
  exact fun i hi s hs => h i hi s (Option.mem_toList.2 hs)

theorem export_symbol : ∀ r ∈ exports, ∃ i ∈ items, i.symbol = some r.name ∧
    ∀ f ∈ i.cfg.needs, r.alloc = true ∧ f = .alloc := by
  decide +kernel

/-! ### Methods of traits -/

theorem toUsi_required : ∀ i ∈ items, i.methodOf "ToUsi" → i.kind = .required →
    i.cfg.needs = [] := by
  decide +kernel

theorem checker_status : ∃ i ∈ items, i.name = "LegalityChecker::status" ∧
    i.methodOf "LegalityChecker" ∧ i.kind = .required ∧ i.cfg.needs = [.alloc] := by
  decide +kernel

theorem checker_needs : ∀ i ∈ items, i.methodOf "LegalityChecker" → ∀ f ∈ i.cfg.needs,
    f = .alloc := by
  decide +kernel

/-! ### Names of the header -/

/-- The features a macro of the header stands for. -/
def Macro.feature : Macro → Feature
  | .DEFINE_ALLOC => .alloc
  | .DEFINE_EXPERIMENTAL => .experimental

theorem typedef_item : ∀ t ∈ typedefs.map Prod.fst, t ≠ "Option_Square" →
    ∃ i ∈ items, i.name = t ∧
      i.cfg.needs = (headerGuard t).toList.map Macro.feature := by
  decide +kernel

theorem constant_item : ∀ n ∈ constantNames, n.1 ∈ defines.map Prod.fst ∧
    ∃ i ∈ items, i.name = n.2 ∧ i.cfg.needs = (headerGuard n.1).toList.map Macro.feature := by
  decide +kernel

theorem declared_iff (macros : List Macro) (n : String)
    (hn : n ∈ typedefs.map Prod.fst ++ defines.map Prod.fst) :
    n ∈ declared macros ↔ ∀ m ∈ headerGuard n, m ∈ macros := by
  unfold declared
  rw [List.mem_filter]
  cases h : headerGuard n with
  | none => simp only [and_true]; exact ⟨fun _ m hm => (by cases hm), fun _ => hn⟩
  | some m =>
    simp only [List.contains_iff_mem]
    exact ⟨fun ⟨_, h⟩ k hk => by cases hk; exact h, fun h => ⟨hn, h m rfl⟩⟩

theorem present_name (on : List Feature) (i : Item) (hi : i ∈ items) :
    (∃ j ∈ present on, j.name = i.name) ↔ ∀ f ∈ i.cfg.needs, f ∈ on := by
  constructor
  · rintro ⟨j, hj, e⟩
    have hj' := (mem_present _ _).1 hj
    rw [← inj_on_of_nodup items_nodup hj'.1 hi e]
    exact hj'.2
  · exact fun h => ⟨i, (mem_present _ _).2 ⟨hi, h⟩, rfl⟩

theorem guard_needs {macros : List Macro} {on : List Feature} (h : Fits macros on)
    {g : Option Macro} {l : List Feature} (hg : l = g.toList.map Macro.feature) :
    (∀ m ∈ g, m ∈ macros) ↔ ∀ f ∈ l, f ∈ on := by
  subst hg
  cases g with
  | none => simp
  | some m =>
    cases m
    · simpa [Macro.feature] using h.1
    · simpa [Macro.feature] using h.2

end ShogiCore
