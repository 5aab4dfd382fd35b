import Verif.Spec.BuildScript

/- Lemmas about the build script: programs that write to one file. -/

namespace ShogiCore
open RustText

theorem World.set_fs (w : World) (p : Path) (l : List U8) : (w.set p l).fs p = some l := by
  simp [World.set]

theorem World.set_other (w : World) {p q : Path} (l : List U8) (h : q ≠ p) :
    (w.set p l).fs q = w.fs q := by
  simp [World.set, h]

theorem World.set_set (w : World) (p : Path) (l m : List U8) :
    (w.set p l).set p m = w.set p m := by
  unfold World.set
  congr 1
  funext q
  by_cases h : q = p <;> simp [h]

theorem World.set_self (w : World) {p : Path} {l : List U8} (h : w.fs p = some l) :
    w.set p l = w := by
  unfold World.set
  cases w with
  | mk fs out =>
    congr 1
    funext q
    by_cases e : q = p
    · simp only [e, if_true]; exact h.symm
    · simp [e]

theorem write_all_prefix {buf f g : List U8} {b : Bool} (h : WriteAll buf f g b) :
    ∃ u v, buf = u ++ v ∧ g = f ++ u ∧ (b = true → v = []) ∧ (b = false → v ≠ []) := by
  induction h with
  | done f => exact ⟨[], [], rfl, by simp, fun _ => rfl, nofun⟩
  | @part buf f g b n _ _ _ ih =>
    obtain ⟨u, v, e, eg, h1, h2⟩ := ih
    refine ⟨buf.take n ++ u, v, ?_, by rw [eg, List.append_assoc], h1, h2⟩
    rw [List.append_assoc, ← e, List.take_append_drop]
  | interrupted _ _ ih => exact ih
  | @failed buf f hne => exact ⟨[], buf, rfl, by simp, nofun, fun _ => hne⟩

theorem write_all_can (buf f : List U8) : WriteAll buf f (f ++ buf) true := by
  cases buf with
  | nil => simpa using WriteAll.done f
  | cons a l =>
    refine .part (a :: l).length (by simp) (Nat.le_refl _) ?_
    rw [List.drop_length, List.take_length]
    exact .done _

/-- The program appends the text `t` to the file `p`: all of it if it succeeds, which it may, less
if it fails; it never panics and does nothing else. -/
structure Appends (p : Path) (m : Io Unit) (t : List U8) : Prop where
  run : ∀ {w r w' f}, w.fs p = some f → m w r w' → ∃ u v, t = u ++ v ∧ w' = w.set p (f ++ u) ∧
    ((r = .ok () ∧ v = []) ∨ r = .err ∧ v ≠ [])
  can : ∀ {w f}, w.fs p = some f → m w (.ok ()) (w.set p (f ++ t))

theorem appends_write_all (p : Path) (t : List U8) : Appends p (write_all p t) t where
  run := by
    rintro w r w' f hf ⟨f', g, b, hf', hw, rfl, rfl⟩
    obtain rfl : f = f' := by rw [hf] at hf'; exact Option.some.inj hf'
    obtain ⟨u, v, e, rfl, h1, h2⟩ := write_all_prefix hw
    refine ⟨u, v, e, rfl, ?_⟩
    cases b
    · exact .inr ⟨rfl, h2 rfl⟩
    · exact .inl ⟨rfl, h1 rfl⟩
  can := fun {w f} hf => ⟨f, f ++ t, true, hf, write_all_can t f, rfl, rfl⟩

theorem appends_pure (p : Path) : Appends p (pure ()) [] where
  run := by
    rintro w r w' f hf ⟨rfl, rfl⟩
    exact ⟨[], [], rfl, by rw [List.append_nil, World.set_self _ hf], .inl ⟨rfl, rfl⟩⟩
  can := by
    intro w f hf
    rw [List.append_nil, World.set_self _ hf]
    exact ⟨rfl, rfl⟩

theorem Appends.bind {p : Path} {m n : Io Unit} {t s : List U8} (hm : Appends p m t)
    (hn : Appends p n s) : Appends p (m >>= fun _ => n) (t ++ s) where
  run := by
    rintro w r w' f hf ⟨e, x, h1, h2⟩
    obtain ⟨u, v, ht, rfl, ⟨rfl, rfl⟩ | ⟨rfl, hv⟩⟩ := hm.run hf h1
    · obtain ⟨u', v', hs, rfl, hr⟩ := hn.run (World.set_fs _ _ _) h2
      refine ⟨u ++ u', v', ?_, ?_, hr⟩
      · rw [ht, hs]; simp
      · rw [World.set_set, List.append_assoc]
    · obtain ⟨rfl, rfl⟩ := h2
      refine ⟨u, v ++ s, by rw [ht, List.append_assoc], rfl, .inr ⟨rfl, ?_⟩⟩
      intro h
      exact hv (List.append_eq_nil_iff.1 h).1
  can := by
    intro w f hf
    refine ⟨.ok (), _, hm.can hf, ?_⟩
    have := hn.can (World.set_fs w p (f ++ t))
    rw [World.set_set, List.append_assoc] at this
    exact this

theorem appends_forM {α : Type} {p : Path} (l : List α) {m : α → Io Unit} {t : α → List U8}
    (h : ∀ a, Appends p (m a) (t a)) : Appends p (l.forM m) (l.flatMap t) := by
  induction l with
  | nil => exact appends_pure p
  | cons a l ih =>
    rw [List.flatMap_cons]
    exact (h a).bind ih

theorem appends_write_fmt (p : Path) (parts : List (List U8)) :
    Appends p (write_fmt p parts) parts.flatten := by
  have := appends_forM parts (appends_write_all p)
  rwa [List.flatMap_id'] at this

/-- The text of the file of pieces. -/
def pieceSource : List U8 :=
  ascii "use crate::{Color, Piece, PieceKind};\n// Constants in Piece\n#[doc(hidden)]\nimpl Piece {\n" ++
  (color_table.flatMap (fun c => piece_table.flatMap fun k =>
    [ascii "    pub const ", ascii c.1, ascii "_", ascii k.1,
      ascii ": Piece = Piece::new(PieceKind::", ascii k.2, ascii ", Color::", ascii c.2,
      ascii ");\n"].flatten) ++
  (ascii "}\n\n/// Constants of type [`Piece`].\npub mod piece {\n    use super::*;\n" ++
  (color_table.flatMap (fun c => piece_table.flatMap fun k =>
    [ascii "    /// Also available as `Piece::", ascii c.1, ascii "_", ascii k.1,
      ascii "`.\n    pub const ", ascii c.1, ascii "_", ascii k.1,
      ascii ": Piece = Piece::new(PieceKind::", ascii k.2, ascii ", Color::", ascii c.2,
      ascii ");\n"].flatten) ++ ascii "}\n")))

theorem appends_pieces (p : Path) : Appends p (generate_piece_consts p) pieceSource := by
  exact (appends_write_all p _).bind <|
    (appends_forM _ fun _ => appends_forM _ fun _ => appends_write_fmt p _).bind <|
    (appends_write_all p _).bind <|
    (appends_forM _ fun _ => appends_forM _ fun _ => appends_write_fmt p _).bind <|
    appends_write_all p _

/-- The text of the file of squares. -/
def squareSource : List U8 :=
  [ascii "use crate::Square;\n// Constants in Square\n#[doc(hidden)]\nimpl Square {\n"].flatten ++
  ((List.range 81).flatMap (fun i =>
    [ascii "    pub const SQ_", fmtNat (i / 9 + 1), [BitVec.ofNat 8 (i % 9 + 65)],
      ascii ": Square = unsafe { Square::from_u8_unchecked(", fmtNat (i + 1),
      ascii ") };\n"].flatten) ++
  (ascii "}\n\n/// Constants of type [`Square`].\npub mod square {\n    use super::Square;\n" ++
  ((List.range 81).flatMap (fun i =>
    [ascii "    /// Also available as `Square::SQ_", fmtNat (i / 9 + 1),
      [BitVec.ofNat 8 (i % 9 + 65)], ascii "`.\n    pub const SQ_", fmtNat (i / 9 + 1),
      [BitVec.ofNat 8 (i % 9 + 65)],
      ascii ": Square = unsafe { Square::from_u8_unchecked(", fmtNat (i + 1),
      ascii ") };\n"].flatten) ++ ascii "}\n")))

theorem appends_squares (p : Path) : Appends p (generate_square_consts p) squareSource := by
  exact (appends_write_fmt p _).bind <| (appends_forM _ fun _ => appends_write_fmt p _).bind <|
    (appends_write_all p _).bind <| (appends_forM _ fun _ => appends_write_fmt p _).bind <|
    appends_write_all p _

set_option maxRecDepth 100000 in
theorem pieceSource_declares :
    Declares pieceSource "Piece" "piece" declaredPieces pieceName pieceInit := by
  unfold Declares
  decide +kernel

set_option maxRecDepth 100000 in
theorem squareSource_declares :
    Declares squareSource "Square" "square" declaredSquares squareName squareInit := by
  unfold Declares
  decide +kernel

end ShogiCore
