import Verif.Spec.Basic
import Verif.Lemmas.Res

namespace ShogiCore

theorem Color.forall_iff {p : Color → Prop} : (∀ c, p c) ↔ p .Black ∧ p .White :=
  ⟨fun h => ⟨h _, h _⟩, fun h c => match c with | .Black => h.1 | .White => h.2⟩

instance (p : Color → Prop) [DecidablePred p] : Decidable (∀ c, p c) :=
  decidable_of_iff _ Color.forall_iff.symm

theorem PieceKind.mem_all (k : PieceKind) : k ∈ PieceKind.all := by cases k <;> decide

instance (p : PieceKind → Prop) [DecidablePred p] : Decidable (∀ k, p k) :=
  decidable_of_iff (∀ k ∈ PieceKind.all, p k)
    ⟨fun h k => h k (PieceKind.mem_all k), fun h k _ => h k⟩

instance (p : PieceKind → Prop) [DecidablePred p] : Decidable (∃ k, p k) :=
  decidable_of_iff (∃ k ∈ PieceKind.all, p k)
    ⟨fun ⟨k, _, h⟩ => ⟨k, h⟩, fun ⟨k, h⟩ => ⟨k, PieceKind.mem_all k, h⟩⟩

instance (p : Color → Prop) [DecidablePred p] : Decidable (∃ k, p k) :=
  decidable_of_iff (p .Black ∨ p .White)
    ⟨fun h => h.elim (⟨_, ·⟩) (⟨_, ·⟩), fun ⟨k, h⟩ => match k, h with | .Black, h => .inl h | .White, h => .inr h⟩

namespace Color

@[simp] theorem flip_ok (c : Color) : c.flip = .ok c.other := by cases c <;> rfl
@[simp] theorem other_other (c : Color) : c.other.other = c := by cases c <;> rfl
theorem other_ne (c : Color) : c.other ≠ c := by cases c <;> decide

/-- Array index of a colour as a number. -/
def idx0 : Color → Nat
  | .Black => 0
  | .White => 1

theorem idx0_lt (c : Color) : c.idx0 < 2 := by cases c <;> decide
theorem idx0_inj {c d : Color} (h : c.idx0 = d.idx0) : c = d := by
  cases c <;> cases d <;> simp_all [idx0]

variable [P : Profile]

omit P in
private theorem ai_table : ∀ d : Build, ∀ c : Color,
    @array_index ⟨d⟩ c = .ok (BitVec.ofNat d.ptr.bits c.idx0) := by decide +kernel

theorem array_index_ok (c : Color) : c.array_index = .ok (BitVec.ofNat Profile.bits c.idx0) :=
  profile_ind (motive := fun P => @array_index P c = .ok (BitVec.ofNat P.build.ptr.bits c.idx0)) (ai_table · c) P

end Color

namespace PieceKind

/-- Array index of a kind as a number. -/
def idx0 (k : PieceKind) : Nat := k.toU8.toNat - 1

theorem idx0_lt (k : PieceKind) : k.idx0 < 14 := by cases k <;> decide

theorem idx0_inj : ∀ {k l : PieceKind}, k.idx0 = l.idx0 → k = l := by
  have : ∀ k l : PieceKind, k.idx0 = l.idx0 → k = l := by decide +kernel
  exact fun {k l} => this k l

theorem toU8_inj {k l : PieceKind} (h : k.toU8 = l.toU8) : k = l :=
  idx0_inj (by unfold idx0; rw [h])

theorem toU8_toNat (k : PieceKind) : k.toU8.toNat = k.idx0 + 1 := by cases k <;> rfl

variable [P : Profile]

omit P in
private theorem ai_table : ∀ d : Build, ∀ c : PieceKind,
    @array_index ⟨d⟩ c = .ok (BitVec.ofNat d.ptr.bits c.idx0) := by decide +kernel

theorem array_index_ok (c : PieceKind) : c.array_index = .ok (BitVec.ofNat Profile.bits c.idx0) :=
  profile_ind (motive := fun P => @array_index P c = .ok (BitVec.ofNat P.build.ptr.bits c.idx0)) (ai_table · c) P

end PieceKind

namespace Piece

theorem ext' {s t : Piece} (h : s.val = t.val) : s = t := by cases s; cases t; simp_all

theorem mk'_valid (k : PieceKind) (c : Color) : (mk' k c).Valid := by
  cases k <;> cases c <;> decide

theorem mk'_inj {k l : PieceKind} {c d : Color} (h : mk' k c = mk' l d) : k = l ∧ c = d := by
  have : ∀ k l : PieceKind, ∀ c d : Color, mk' k c = mk' l d → k = l ∧ c = d := by decide +kernel
  exact this k l c d h

theorem valid_iff (p : Piece) : p.Valid ↔ ∃ k c, p = mk' k c := by
  have : ∀ v : U8, (⟨v⟩ : Piece).Valid ↔ ∃ k c, (⟨v⟩ : Piece) = mk' k c :=
    forall_u8 (by decide +kernel)
  exact this p.val

/-- Kind of a valid piece. -/
theorem exists_mk' {p : Piece} (h : p.Valid) : ∃ k c, p = mk' k c := (valid_iff p).1 h

@[simp] theorem to_parts_mk' (k : PieceKind) (c : Color) : (mk' k c).to_parts = .ok (k, c) := by
  cases k <;> cases c <;> rfl

@[simp] theorem piece_kind_mk' (k : PieceKind) (c : Color) : (mk' k c).piece_kind = .ok k := by
  simp [piece_kind]

@[simp] theorem color_mk' (k : PieceKind) (c : Color) : (mk' k c).color = .ok c := by
  simp [color]

variable [P : Profile]

omit P in
private theorem new_table : ∀ d : Build, ∀ k c, @new ⟨d⟩ k c = .ok (mk' k c) := by decide +kernel

@[simp] theorem new_ok (k : PieceKind) (c : Color) : new k c = .ok (mk' k c) :=
  profile_ind (motive := fun P => @new P k c = _) (new_table · k c) P

@[simp] theorem promote_mk' (k : PieceKind) (c : Color) :
    (mk' k c).promote = .ok (k.promote.map (mk' · c)) := by
  unfold promote; rw [to_parts_mk']; cases h : k.promote <;> simp [h]

@[simp] theorem unpromote_mk' (k : PieceKind) (c : Color) :
    (mk' k c).unpromote = .ok (k.unpromote.map (mk' · c)) := by
  unfold unpromote; rw [to_parts_mk']; cases h : k.unpromote <;> simp [h]

end Piece
end ShogiCore
