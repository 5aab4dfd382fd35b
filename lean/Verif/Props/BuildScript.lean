import Verif.Lemmas.BuildScript
import Verif.Lemmas.Square

/- C91: the build script and the files it generates, whatever the operating system does. -/

namespace ShogiCore
open RustText

/-! ### Runs -/

theorem files_ne (d : Path) : squareFile d ≠ pieceFile d := by
  unfold squareFile pieceFile Path.join
  have h : ascii "square_consts.rs" ≠ ascii "piece_consts.rs" := by decide +kernel
  split
  · exact h
  · split
    · exact fun e => h (List.append_cancel_left e)
    · exact fun e => h (List.cons.inj (List.append_cancel_left e)).2

/-- All runs of the script in a given directory. -/
theorem main_runs {d : Path} {w w' : World} {r : Exit Unit} (h : buildMain (some d) w r w') :
    (r = .err ∧ w' = w) ∨
    (∃ u v, pieceSource = u ++ v ∧ r = .err ∧ w' = w.set (pieceFile d) u) ∨
    (∃ u v, squareSource = u ++ v ∧ r = .err ∧
      w' = (w.set (pieceFile d) pieceSource).set (squareFile d) u) ∨
    (∃ u v, rerunLine = u ++ v ∧ (r = .ok () ∧ v = [] ∨ r = .panic ∧ v ≠ []) ∧
      w' = { (w.set (pieceFile d) pieceSource).set (squareFile d) squareSource with
        out := w.out ++ u }) := by
  obtain ⟨e0, w0, h0, h⟩ := h
  obtain ⟨rfl, rfl⟩ : e0 = .ok d ∧ w0 = w := h0
  obtain ⟨e1, w1, h1, h⟩ := h
  rcases h1 with ⟨rfl, rfl⟩ | ⟨rfl, rfl⟩
  rotate_left
  · exact .inl h
  obtain ⟨e2, w2, h2, h⟩ := h
  obtain ⟨u, v, hu, rfl, g2⟩ := (appends_pieces (pieceFile d)).run (World.set_fs _ _ _) h2
  rw [World.set_set, List.nil_append] at h
  rcases g2 with ⟨rfl, rfl⟩ | ⟨rfl, hv⟩
  rotate_left
  · obtain ⟨rfl, rfl⟩ := h
    exact .inr (.inl ⟨u, v, hu, rfl, rfl⟩)
  rw [List.append_nil] at hu
  subst hu
  obtain ⟨e3, w3, h3, h⟩ := h
  rcases h3 with ⟨rfl, rfl⟩ | ⟨rfl, rfl⟩
  rotate_left
  · obtain ⟨rfl, rfl⟩ := h
    exact .inr (.inl ⟨pieceSource, [], by simp, rfl, rfl⟩)
  obtain ⟨e4, w4, h4, h⟩ := h
  obtain ⟨u, v, hu, rfl, g4⟩ := (appends_squares (squareFile d)).run (World.set_fs _ _ _) h4
  rw [World.set_set, List.nil_append] at h
  rcases g4 with ⟨rfl, rfl⟩ | ⟨rfl, hv⟩
  rotate_left
  · obtain ⟨rfl, rfl⟩ := h
    exact .inr (.inr (.inl ⟨u, v, hu, rfl, rfl⟩))
  rw [List.append_nil] at hu
  subst hu
  obtain ⟨l, b, hw, rfl, rfl⟩ := h
  obtain ⟨u, v, e, rfl, hb1, hb2⟩ := write_all_prefix hw
  refine .inr (.inr (.inr ⟨u, v, ?_, ?_, rfl⟩))
  · rw [← e]; decide +kernel
  · cases b
    · exact .inr ⟨rfl, hb2 rfl⟩
    · exact .inl ⟨rfl, hb1 rfl⟩

/-- C91: there are two texts, one with a constant for each piece and one with a constant for each
square, such that whatever the directory, whatever was in the files before and however the system
splits, interrupts or refuses the writes: if the script reports success, the two files hold exactly
these texts, no other file has changed, and cargo has been told to run it again if it changes. -/
theorem C91_files : ∃ t u,
    Declares t "Piece" "piece" declaredPieces pieceName pieceInit ∧
    Declares u "Square" "square" declaredSquares squareName squareInit ∧
    (∀ d w w', buildMain (some d) w (.ok ()) w' →
      w'.fs (pieceFile d) = some t ∧ w'.fs (squareFile d) = some u ∧
      (∀ q, q ≠ pieceFile d → q ≠ squareFile d → w'.fs q = w.fs q) ∧
      w'.out = w.out ++ rerunLine) ∧
    (∀ d w w', buildMain (some d) w .err w' → w'.out = w.out ∧
      (∀ q, q ≠ pieceFile d → q ≠ squareFile d → w'.fs q = w.fs q) ∧
      ((w'.fs (pieceFile d) = w.fs (pieceFile d) ∧
          w'.fs (squareFile d) = w.fs (squareFile d)) ∨
        (∃ l, w'.fs (pieceFile d) = some l ∧ l <+: t ∧
          w'.fs (squareFile d) = w.fs (squareFile d)) ∨
        (w'.fs (pieceFile d) = some t ∧ ∃ l, w'.fs (squareFile d) = some l ∧ l <+: u))) ∧
    (∀ d w w', buildMain (some d) w .panic w' →
      w'.fs (pieceFile d) = some t ∧ w'.fs (squareFile d) = some u ∧
      (∀ q, q ≠ pieceFile d → q ≠ squareFile d → w'.fs q = w.fs q) ∧
      ∃ l, w'.out = w.out ++ l ∧ l <+: rerunLine ∧ l ≠ rerunLine) := by
  refine ⟨pieceSource, squareSource, pieceSource_declares, squareSource_declares, ?_, ?_, ?_⟩
  · intro d w w' h
    rcases main_runs h with ⟨k, -⟩ | ⟨_, _, -, k, -⟩ | ⟨_, _, -, k, -⟩ |
      ⟨u, v, e, ⟨-, rfl⟩ | ⟨k, -⟩, rfl⟩
    · cases k
    · cases k
    · cases k
    · rw [List.append_nil] at e
      refine ⟨?_, World.set_fs _ _ _, fun q h1 h2 => ?_, by rw [e]⟩
      · exact (World.set_other _ _ (files_ne d).symm).trans (World.set_fs _ _ _)
      · exact (World.set_other _ _ h2).trans (World.set_other _ _ h1)
    · cases k
  · intro d w w' h
    rcases main_runs h with ⟨-, rfl⟩ | ⟨u, v, e, -, rfl⟩ | ⟨u, v, e, -, rfl⟩ |
      ⟨u, v, e, ⟨k, -⟩ | ⟨k, -⟩, -⟩
    · exact ⟨rfl, fun _ _ _ => rfl, .inl ⟨rfl, rfl⟩⟩
    · exact ⟨rfl, fun q h1 _ => World.set_other _ _ h1, .inr (.inl ⟨u, World.set_fs _ _ _,
        ⟨v, e.symm⟩, World.set_other _ _ (files_ne d)⟩)⟩
    · refine ⟨rfl, fun q h1 h2 => ?_, .inr (.inr ⟨?_, u, World.set_fs _ _ _, ⟨v, e.symm⟩⟩)⟩
      · exact (World.set_other _ _ h2).trans (World.set_other _ _ h1)
      · exact (World.set_other _ _ (files_ne d).symm).trans (World.set_fs _ _ _)
    · cases k
    · cases k
  · intro d w w' h
    rcases main_runs h with ⟨k, -⟩ | ⟨_, _, -, k, -⟩ | ⟨_, _, -, k, -⟩ |
      ⟨u, v, e, ⟨k, -⟩ | ⟨-, hv⟩, rfl⟩
    · cases k
    · cases k
    · cases k
    · cases k
    · refine ⟨?_, World.set_fs _ _ _, fun q h1 h2 => ?_, u, rfl, ⟨v, e.symm⟩, fun h => hv ?_⟩
      · exact (World.set_other _ _ (files_ne d).symm).trans (World.set_fs _ _ _)
      · exact (World.set_other _ _ h2).trans (World.set_other _ _ h1)
      · have := e.symm.trans h.symm
        exact List.append_right_eq_self.1 this

/-- C91: the script panics at once if there is no `OUT_DIR`; otherwise it may succeed, whatever is
in the files. -/
theorem C91_can :
    (∀ w r w', buildMain none w r w' ↔ r = .panic ∧ w' = w) ∧
    ∀ d w, ∃ w', buildMain (some d) w (.ok ()) w' := by
  constructor
  · intro w r w'
    constructor
    · rintro ⟨e, v, ⟨rfl, rfl⟩, h⟩
      exact h
    · rintro ⟨rfl, rfl⟩
      exact ⟨.panic, w', ⟨rfl, rfl⟩, rfl, rfl⟩
  · intro d w
    exact ⟨_, .ok d, w, ⟨rfl, rfl⟩, .ok (), _, .inl ⟨rfl, rfl⟩, .ok (), _,
      (appends_pieces (pieceFile d)).can (World.set_fs _ _ _), .ok (), _, .inl ⟨rfl, rfl⟩, .ok (), _,
      (appends_squares (squareFile d)).can (World.set_fs _ _ _), _, true, write_all_can _ _, rfl, rfl⟩

/-! ### What the texts say -/

/-- C91: the constants: one for each of the 28 pieces and one for each of the 81 squares, with
different names, and each is the value its name says. -/
theorem C91_values [P : Profile] :
    (∀ c k, (c, k) ∈ declaredPieces) ∧ declaredPieces.length = 28 ∧ (declaredPieces.map pieceName).Nodup ∧
    (∀ p ∈ declaredPieces, pieceValue (pieceInit p) = some (Piece.new p.2 p.1)) ∧
    (∀ f r, (f, r) ∈ declaredSquares ↔ (1 ≤ f ∧ f ≤ 9) ∧ 1 ≤ r ∧ r ≤ 9) ∧ declaredSquares.length = 81 ∧
    (declaredSquares.map squareName).Nodup ∧
    (∀ s ∈ declaredSquares, ∃ q, squareValue (squareInit s) = some (.ok q) ∧
      Square.new (BitVec.ofNat 8 s.1) (BitVec.ofNat 8 s.2) = .ok (some q) ∧
      q.file = .ok (BitVec.ofNat 8 s.1) ∧ q.rank = .ok (BitVec.ofNat 8 s.2)) := by
  refine ⟨fun c k => by cases c <;> cases k <;> decide, by decide +kernel, by decide +kernel, ?_,
    fun f r => ?_, by decide +kernel, by decide +kernel, ?_⟩
  · have h : ∀ b : Build, ∀ p ∈ declaredPieces,
        letI : Profile := ⟨b⟩
        pieceValue (pieceInit p) = some (Piece.new p.2 p.1) := by
      decide +kernel
    exact h P.build
  · constructor
    · intro h
      have : ∀ s ∈ declaredSquares, (1 ≤ s.1 ∧ s.1 ≤ 9) ∧ 1 ≤ s.2 ∧ s.2 ≤ 9 := by decide +kernel
      exact this _ h
    · rintro ⟨⟨h1, h2⟩, h3, h4⟩
      have : ∀ f : Fin 10, ∀ r : Fin 10, 1 ≤ f.1 → 1 ≤ r.1 → (f.1, r.1) ∈ declaredSquares := by decide +kernel
      exact this ⟨f, by omega⟩ ⟨r, by omega⟩ h1 h3
  · have h : ∀ b : Build, ∀ s ∈ declaredSquares,
        letI : Profile := ⟨b⟩
        letI q := Square.ofIdx (9 * (s.1 - 1) + (s.2 - 1))
        squareValue (squareInit s) = some (.ok q) ∧
        Square.new (BitVec.ofNat 8 s.1) (BitVec.ofNat 8 s.2) = .ok (some q) ∧
        q.file = .ok (BitVec.ofNat 8 s.1) ∧ q.rank = .ok (BitVec.ofNat 8 s.2) := by
      decide +kernel
    exact fun s hs => ⟨_, h P.build s hs⟩

theorem squeeze_cons (b : U8) (l m : Path) (h : squeeze l = squeeze m) (hl : l ≠ []) (hm : m ≠ [])
    (e : l.head? = m.head?) : squeeze (b :: l) = squeeze (b :: m) := by
  cases l with
  | nil => exact absurd rfl hl
  | cons a l =>
    cases m with
    | nil => exact absurd rfl hm
    | cons c m =>
      cases (Option.some.inj e)
      rw [squeeze, squeeze, h]

/-- A slash at the end of a directory may be doubled. -/
theorem squeeze_double (d n : Path) (h : d.getLast? = some 47) :
    squeeze (d ++ n) = squeeze (d ++ 47 :: n) := by
  induction d with
  | nil => simp at h
  | cons b d ih =>
    cases d with
    | nil =>
      have : b = 47 := by simpa using h
      subst this
      simp [squeeze]
    | cons c d =>
      refine squeeze_cons b _ _ (ih (by simpa using h)) (by simp) (by simp) (by simp)

/-- C91: the files are the ones that lib.rs includes, except if `OUT_DIR` is empty. -/
theorem C91_included (d : Path) :
    (squeeze (pieceFile d) = squeeze (includePath d "/piece_consts.rs") ↔ d ≠ []) ∧
    (squeeze (squareFile d) = squeeze (includePath d "/square_consts.rs") ↔ d ≠ []) ∧
    (d ≠ [] → d.getLast? ≠ some 47 → pieceFile d = includePath d "/piece_consts.rs" ∧
      squareFile d = includePath d "/square_consts.rs") := by
  by_cases h : d = []
  · subst h
    exact ⟨by decide +kernel, by decide +kernel, fun h => absurd rfl h⟩
  have e1 : includePath d "/piece_consts.rs" = d ++ 47 :: ascii "piece_consts.rs" := by
    unfold includePath; congr 1
  have e2 : includePath d "/square_consts.rs" = d ++ 47 :: ascii "square_consts.rs" := by
    unfold includePath; congr 1
  rw [e1, e2]
  unfold pieceFile squareFile Path.join
  rw [if_neg h]
  by_cases g : d.getLast? = some 47
  · rw [if_pos g, if_neg h, if_pos g]
    exact ⟨⟨fun _ => h, fun _ => squeeze_double _ _ g⟩, ⟨fun _ => h, fun _ => squeeze_double _ _ g⟩,
      fun _ k => absurd g k⟩
  · rw [if_neg g, if_neg h, if_neg g]
    exact ⟨⟨fun _ => h, fun _ => rfl⟩, ⟨fun _ => h, fun _ => rfl⟩, fun _ _ => ⟨rfl, rfl⟩⟩

/-! ### Cases -/

/-- An empty variable: the script writes into the current directory, the library looks in the
root. -/
example : squeeze (pieceFile []) ≠ squeeze (includePath [] "/piece_consts.rs") := by decide +kernel

/-- `target/out` and `target/out/`. -/
example : pieceFile (ascii "target/out") = ascii "target/out/piece_consts.rs" ∧
    pieceFile (ascii "target/out/") = ascii "target/out/piece_consts.rs" := by decide +kernel

/-- A file left from an older build, however long, is replaced. -/
example (d : Path) (n : Nat) : ∃ w w' : World, w.fs (pieceFile d) = some (List.replicate n 0) ∧
    buildMain (some d) w (.ok ()) w' ∧ ∀ u, w'.fs (pieceFile d) = some u →
      Declares u "Piece" "piece" declaredPieces pieceName pieceInit := by
  obtain ⟨w', h⟩ := C91_can.2 d ((⟨fun _ => none, []⟩ : World).set (pieceFile d) (List.replicate n 0))
  obtain ⟨t, _, ht, -, hok, -⟩ := C91_files
  refine ⟨_, w', World.set_fs _ _ _, h, fun u hu => ?_⟩
  rw [(hok _ _ _ h).1] at hu
  cases hu
  exact ht

/-- A full disk: the script says so. -/
example (d : Path) (w : World) : buildMain (some d) w .err (w.set (pieceFile d) []) := by
  exact ⟨.ok d, w, ⟨rfl, rfl⟩, .ok (), _, .inl ⟨rfl, rfl⟩, .err, _, ⟨.err, _, ⟨[], [], false,
    World.set_fs _ _ _, .failed _ (by decide +kernel), (World.set_set _ _ _ _).symm, rfl⟩, rfl, rfl⟩, rfl, rfl⟩

/-- The texts differ, and a wrong one is recognised. -/
example : ¬ Declares (ascii "use crate::Square;\nimpl Square {\n}\npub mod square {\n}\n") "Square" "square"
    declaredSquares squareName squareInit := by
  unfold Declares
  decide +kernel

end ShogiCore
