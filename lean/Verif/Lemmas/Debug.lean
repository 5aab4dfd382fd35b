import Verif.Spec.Debug
import Verif.Props.Text
import Verif.Lemmas.Order

/- Lemmas on the texts of `Debug`: without its layout a text determines the tree it was written
from. -/

namespace ShogiCore

/-- Letters, digits, the underscore and the plus sign. -/
def wordByte (b : U8) : Bool :=
  isDigit b || (decide (65 ≤ b.toNat) && decide (b.toNat ≤ 90)) ||
  (decide (97 ≤ b.toNat) && decide (b.toNat ≤ 122)) || b == asciiByte '_' || b == asciiByte '+'

/-- Only letters, digits, underscores and plus signs. -/
def Wordy (l : List U8) : Prop := ∀ b ∈ l, wordByte b = true

instance (l : List U8) : Decidable (Wordy l) := inferInstanceAs (Decidable (∀ b ∈ l, _))

/-- Opening bracket. -/
def DKind.op : DKind → U8
  | .tuple => asciiByte '('
  | .struct => asciiByte '{'
  | .list => asciiByte '['

/-- Closing bracket. -/
def DKind.cl : DKind → U8
  | .tuple => asciiByte ')'
  | .struct => asciiByte '}'
  | .list => asciiByte ']'

/-- Label without the space. -/
def DKind.tag : DKind → List U8 → List U8
  | .struct, l => l ++ [asciiByte ':']
  | _, _ => []

mutual
/-- The tree with the options' effect on numbers and `bool`s written out, without the padding. -/
def DTree.norm (o : FmtOpts) : DTree → DTree
  | .word w => .word w
  | .int n => .word (unfilled o.fill (o.integer n))
  | .padded w => .word (unfilled o.fill (o.pad w))
  | .node k n es => .node k n (es.norm o)
/-- See `DTree.norm`. -/
def DEntries.norm (o : FmtOpts) : DEntries → DEntries
  | .nil => .nil
  | .cons l t r => .cons l (t.norm o) (r.norm o)
end

mutual
/-- Names, labels and words are made of word bytes; only struct entries have labels. -/
def DTree.WF : DTree → Prop
  | .word w => w ≠ [] ∧ Wordy w
  | .int _ => False
  | .padded _ => False
  | .node k n es => Wordy n ∧ es.WF k
/-- See `DTree.WF`. -/
def DEntries.WF (k : DKind) : DEntries → Prop
  | .nil => True
  | .cons l t r => Wordy l ∧ (k ≠ .struct → l = []) ∧ t.WF ∧ DEntries.WF k r
end

/-- Whether there are entries. -/
def DEntries.more : DEntries → Bool
  | .nil => false
  | .cons .. => true

mutual
/-- The text without layout; `tc`: a comma also after the last entry. -/
def DTree.skel (tc : Bool) : DTree → List U8
  | .word w => w
  | .int _ => []
  | .padded _ => []
  | .node k n es => n ++ k.op :: (es.skel tc k ++ [k.cl])
/-- The entries without layout. -/
def DEntries.skel (tc : Bool) (k : DKind) : DEntries → List U8
  | .nil => []
  | .cons l t r =>
    k.tag l ++ (t.skel tc ++ ((if tc || r.more then [asciiByte ','] else []) ++ DEntries.skel tc k r))
end

/-! ### Removing the layout -/

/-- None of its bytes says anything. -/
def Harmless (f : List U8) : Prop := ∀ b ∈ f, meaningful b = false

theorem meaningful_of_wordByte {b : U8} (h : wordByte b = true) : meaningful b = true :=
  (by decide : ∀ b : U8, wordByte b = true → meaningful b = true) b h

theorem unfilled_append (f a b : List U8) : unfilled f (a ++ b) = unfilled f a ++ unfilled f b :=
  List.filter_append ..

theorem unfilled_meaningful {f : List U8} (hf : Harmless f) {l : List U8}
    (h : ∀ b ∈ l, meaningful b = true) : unfilled f l = l :=
  List.filter_eq_self.2 fun b hb => by
    have a := (by decide : ∀ b : U8, meaningful b = true → inked b = true) b (h b hb)
    rw [a, Bool.true_and, Bool.not_eq_true', Bool.eq_false_iff]
    intro c
    have := hf b (List.contains_iff_mem.1 c)
    rw [h b hb] at this; cases this

theorem unfilled_wordy {f : List U8} (hf : Harmless f) {l : List U8} (h : Wordy l) : unfilled f l = l :=
  unfilled_meaningful hf fun b hb => meaningful_of_wordByte (h b hb)

/-- Spaces and line breaks go, whatever the fill character. -/
theorem unfilled_blank (f : List U8) {l : List U8} (h : ∀ b ∈ l, inked b = false) : unfilled f l = [] :=
  List.filter_eq_nil_iff.2 fun b hb => by rw [h b hb]; nofun

/-- So does the padding. -/
theorem unfilled_fill (f : List U8) (n : Nat) : unfilled f (List.replicate n f).flatten = [] :=
  List.filter_eq_nil_iff.2 fun b hb => by
    obtain ⟨l, hl, hb⟩ := List.mem_flatten.1 hb
    rw [(List.mem_replicate.1 hl).2] at hb
    rw [List.contains_iff_mem.2 hb]; simp

theorem unfilled_space (l : List U8) : unfilled (ascii " ") l = unspaced l := by
  have : ∀ b : U8, (inked b && !(ascii " ").contains b) = inked b := by decide
  rw [unfilled, unspaced]
  exact List.filter_congr fun b _ => this b

theorem unfilled_pad (f : List U8) (on : Bool) (l : List U8) :
    unfilled f (padAdapter on l) = unfilled f l := by
  induction l generalizing on with
  | nil => rfl
  | cons b r ih =>
    rw [padAdapter, unfilled_append, show b :: r = [b] ++ r from rfl,
      show b :: padAdapter (b == asciiByte '\n') r = [b] ++ padAdapter (b == asciiByte '\n') r from rfl,
      unfilled_append, unfilled_append, ih,
      unfilled_blank f (l := if on = true then ascii "    " else []) (by cases on <;> decide)]
    rfl

theorem unfilled_label {f : List U8} (hf : Harmless f) (k : DKind) {l : List U8} (h : Wordy l) :
    unfilled f (k.label l) = k.tag l := by
  cases k
  · rfl
  · rw [DKind.label, unfilled_append, unfilled_wordy hf h, show ascii ": " = ascii ":" ++ ascii " " from rfl,
      unfilled_append, unfilled_meaningful hf (l := ascii ":") (by decide),
      unfilled_blank f (l := ascii " ") (by decide)]; rfl
  · rfl

/-- What is left of the bytes that the builders write. -/
structure Frame (f : List U8) : Prop where
  open1 : unfilled f (ascii "(") = ascii "("
  open2 : unfilled f (ascii " { ") = ascii "{"
  open3 : unfilled f (ascii "[") = ascii "["
  open4 : unfilled f (ascii "(\n") = ascii "("
  open5 : unfilled f (ascii " {\n") = ascii "{"
  open6 : unfilled f (ascii "[\n") = ascii "["
  close1 : unfilled f (ascii ")") = ascii ")"
  close2 : unfilled f (ascii " }") = ascii "}"
  close3 : unfilled f (ascii "]") = ascii "]"
  close4 : unfilled f (ascii "}") = ascii "}"
  both : unfilled f (ascii "[]") = ascii "[]"
  comma1 : unfilled f (ascii ", ") = ascii ","
  comma2 : unfilled f (ascii ",\n") = ascii ","

theorem frame {f : List U8} (hf : Harmless f) : Frame f := by
  have m : ∀ a : List U8, (∀ b ∈ a, meaningful b = true) → unfilled f a = a :=
    fun a h => unfilled_meaningful hf h
  have n : ∀ a b c : List U8, (∀ x ∈ a, inked x = false) → (∀ x ∈ b, meaningful x = true) →
      (∀ x ∈ c, inked x = false) → unfilled f (a ++ b ++ c) = b := by
    intro a b c ha hb hc
    rw [unfilled_append, unfilled_append, unfilled_blank f ha, unfilled_blank f hc, m b hb]; simp
  exact ⟨m _ (by decide), n (ascii " ") (ascii "{") (ascii " ") (by decide) (by decide) (by decide),
    m _ (by decide), n [] (ascii "(") (ascii "\n") (by decide) (by decide) (by decide),
    n (ascii " ") (ascii "{") (ascii "\n") (by decide) (by decide) (by decide),
    n [] (ascii "[") (ascii "\n") (by decide) (by decide) (by decide), m _ (by decide),
    n (ascii " ") (ascii "}") [] (by decide) (by decide) (by decide), m _ (by decide), m _ (by decide),
    m _ (by decide), n [] (ascii ",") (ascii " ") (by decide) (by decide) (by decide),
    n [] (ascii ",") (ascii "\n") (by decide) (by decide) (by decide)⟩

mutual
theorem unfilled_compact {o : FmtOpts} (hf : Harmless o.fill) : ∀ t : DTree, (t.norm o).WF →
    unfilled o.fill (t.compact o) = (t.norm o).skel false
  | .word w, h => unfilled_wordy hf h.2
  | .int _, _ => rfl
  | .padded _, _ => rfl
  | .node k n es, h => by
    have e := unfilled_compacts hf k es h.2
    have r := frame hf
    cases k <;>
      simp only [DTree.compact, DTree.norm, DTree.skel, unfilled_append, unfilled_wordy hf h.1, e,
        r.open1, r.open2, r.open3, r.close1, r.close2, r.close3, List.append_assoc] <;> rfl
theorem unfilled_compacts {o : FmtOpts} (hf : Harmless o.fill) (k : DKind) : ∀ es : DEntries,
    (es.norm o).WF k → unfilled o.fill (es.compact o k) = (es.norm o).skel false k
  | .nil, _ => rfl
  | .cons l t .nil, h => by
    simp only [DEntries.compact, DEntries.norm, DEntries.skel, unfilled_append, unfilled_label hf k h.1,
      unfilled_compact hf t h.2.2.1, DEntries.more]
    simp
  | .cons l t (.cons l' t' r), h => by
    have e := unfilled_compacts hf k (.cons l' t' r) h.2.2.2
    rw [DEntries.compact, DEntries.norm, DEntries.skel, unfilled_append, unfilled_append, unfilled_append,
      unfilled_label hf k h.1, unfilled_compact hf t h.2.2.1, (frame hf).comma1, e]
    simp only [DEntries.norm, DEntries.more, List.append_assoc]; rfl
end

mutual
theorem unfilled_prettied {o : FmtOpts} (hf : Harmless o.fill) : ∀ t : DTree, (t.norm o).WF →
    unfilled o.fill (t.pretty o) = (t.norm o).skel true
  | .word w, h => unfilled_wordy hf h.2
  | .int _, _ => rfl
  | .padded _, _ => rfl
  | .node .tuple n es, h => by
    have e := unfilled_pretties hf .tuple es h.2
    simp only [DTree.pretty, DTree.norm, DTree.skel, unfilled_append, unfilled_wordy hf h.1, e,
      (frame hf).open4, (frame hf).close1, List.append_assoc]; rfl
  | .node .struct n es, h => by
    have e := unfilled_pretties hf .struct es h.2
    simp only [DTree.pretty, DTree.norm, DTree.skel, unfilled_append, unfilled_wordy hf h.1, e,
      (frame hf).open5, (frame hf).close4, List.append_assoc]; rfl
  | .node .list n .nil, h => by
    simp only [DTree.pretty, DTree.norm, DEntries.norm, DTree.skel, unfilled_append,
      unfilled_wordy hf h.1, DEntries.skel, (frame hf).both]; rfl
  | .node .list n (.cons l t r), h => by
    have e := unfilled_pretties hf .list (.cons l t r) h.2
    simp only [DTree.pretty, DTree.norm, DTree.skel, unfilled_append, unfilled_wordy hf h.1, e,
      (frame hf).open6, (frame hf).close3, List.append_assoc]; rfl
theorem unfilled_pretties {o : FmtOpts} (hf : Harmless o.fill) (k : DKind) : ∀ es : DEntries,
    (es.norm o).WF k → unfilled o.fill (es.pretty o k) = (es.norm o).skel true k
  | .nil, _ => rfl
  | .cons l t r, h => by
    simp only [DEntries.pretty, DEntries.norm, DEntries.skel, unfilled_append, unfilled_pad,
      unfilled_label hf k h.1, unfilled_prettied hf t h.2.2.1, unfilled_pretties hf k r h.2.2.2,
      (frame hf).comma2, List.append_assoc, Bool.true_or]; rfl
end

/-! ### Numbers -/

theorem fmtNat_eq (n : Nat) (buf : List U8) : fmtNat n buf = decimal n ++ buf := by
  induction n using Nat.strongRecOn generalizing buf with
  | _ n ih =>
    rw [fmtNat, decimal]
    split
    · rfl
    · rw [ih (n / 10) (by omega)]; simp

/-- The digits. -/
def hexLetters (upper : Bool) : List U8 :=
  if upper then ascii "0123456789ABCDEF" else ascii "0123456789abcdef"

theorem hexByte_eq (u : Bool) {d : Nat} (h : d < 16) : hexByte u d = (hexLetters u).getD d 0 :=
  (by decide +kernel : ∀ (u : Bool) (d : Fin 16), hexByte u d.1 = (hexLetters u).getD d.1 0) u ⟨d, h⟩

theorem fmtHex_eq (u : Bool) (n : Nat) (buf : List U8) :
    fmtHex u n buf = hexadecimal (hexLetters u) n ++ buf := by
  induction n using Nat.strongRecOn generalizing buf with
  | _ n ih =>
    rw [fmtHex, hexadecimal]
    split
    · rw [hexByte_eq u (by assumption)]; rfl
    · rw [ih (n / 16) (by omega), hexByte_eq u (Nat.mod_lt _ (by omega))]; simp

theorem digitsText_some (u : Bool) (n : Nat) : digitsText (some u) n = hexadecimal (hexLetters u) n := by
  cases u <;> rfl

theorem digits_wordy (n : Nat) : Wordy (decimal n) := by
  intro b hb; rw [wordByte, decimal_digits n b hb]; rfl

theorem hex_wordy (u : Bool) (n : Nat) : Wordy (hexadecimal (hexLetters u) n) := by
  have k : ∀ d, d < 16 → wordByte ((hexLetters u).getD d 0) = true := fun d h =>
    (by decide +kernel : ∀ (u : Bool) (d : Fin 16), wordByte ((hexLetters u).getD d.1 0) = true) u ⟨d, h⟩
  induction n using Nat.strongRecOn with
  | _ n ih =>
    intro b hb
    rw [hexadecimal] at hb
    split at hb
    · rw [List.mem_singleton.1 hb]; exact k _ (by assumption)
    · rcases List.mem_append.1 hb with hb | hb
      · exact ih (n / 16) (by omega) b hb
      · rw [List.mem_singleton.1 hb]; exact k _ (Nat.mod_lt _ (by omega))

theorem digitsText_wordy (x : Option Bool) (n : Nat) : Wordy (digitsText x n) := by
  cases x with
  | none => exact digits_wordy n
  | some u => rw [digitsText_some]; exact hex_wordy u n

theorem digitsText_ne (x : Option Bool) (n : Nat) : digitsText x n ≠ [] := by
  cases x with
  | none => exact decimal_ne_nil n
  | some u => rw [digitsText_some, hexadecimal]; split <;> simp

/-- The value of a hexadecimal number with either kind of letters. -/
def hexValue (l : List U8) : Nat :=
  l.foldl (fun a b => 16 * a + (if isDigit b then b.toNat - 48 else b.toNat % 32 + 9)) 0

theorem hex_value (u : Bool) (n : Nat) : hexValue (hexadecimal (hexLetters u) n) = n := by
  have k : ∀ d, d < 16 → (if isDigit ((hexLetters u).getD d 0) then ((hexLetters u).getD d 0).toNat - 48
      else ((hexLetters u).getD d 0).toNat % 32 + 9) = d := fun d h =>
    (by decide +kernel : ∀ (u : Bool) (d : Fin 16), (if isDigit ((hexLetters u).getD d.1 0)
      then ((hexLetters u).getD d.1 0).toNat - 48
      else ((hexLetters u).getD d.1 0).toNat % 32 + 9) = d.1) u ⟨d, h⟩
  induction n using Nat.strongRecOn with
  | _ n ih =>
    rw [hexadecimal]
    split
    · rw [hexValue, List.foldl_cons, List.foldl_nil, k n (by assumption)]; omega
    · have := ih (n / 16) (by omega)
      rw [hexValue] at this ⊢
      rw [List.foldl_append, this, List.foldl_cons, List.foldl_nil, k _ (Nat.mod_lt _ (by omega))]; omega

/-- Zeros in front do not matter. -/
theorem digitsText_zeros (x : Option Bool) {i j n m : Nat}
    (h : List.replicate i (asciiByte '0') ++ digitsText x n =
      List.replicate j (asciiByte '0') ++ digitsText x m) : n = m := by
  cases x with
  | none =>
    have z : ∀ i n, digitsValue (List.replicate i (asciiByte '0') ++ decimal n) = n := by
      intro i n
      refine Eq.trans ?_ (decimal_value n)
      rw [digitsValue, digitsValue, List.foldl_append]
      congr 1
      induction i with
      | zero => rfl
      | succ i ih => rw [List.replicate_succ, List.foldl_cons]; exact ih
    have := congrArg digitsValue h
    rwa [digitsText, digitsText, z, z] at this
  | some u =>
    have z : ∀ i n, hexValue (List.replicate i (asciiByte '0') ++ hexadecimal (hexLetters u) n) = n := by
      intro i n
      refine Eq.trans ?_ (hex_value u n)
      rw [hexValue, hexValue, List.foldl_append]
      congr 1
      induction i with
      | zero => rfl
      | succ i ih => rw [List.replicate_succ, List.foldl_cons]; exact ih
    have := congrArg hexValue h
    rwa [digitsText_some, digitsText_some, z, z] at this

theorem leadText_wordy (o : FmtOpts) : Wordy (leadText o) := by
  have : ∀ p q : Bool, Wordy ((if p = true then ascii "+" else []) ++ (if q = true then ascii "0x" else [])) := by
    decide
  exact this o.plus (o.alternate && o.hex.isSome)

private theorem half (q : Nat) : q / 2 ≤ q ∧ 2 * (q / 2) ≤ q ∧ q ≤ 2 * (q / 2) + 1 := by omega

/-- The number as the formatter writes it. -/
theorem integer_text (o : FmtOpts) (n : Nat) : NumberText o n (o.integer n) := by
  have key : ∀ pre digits lead : List U8,
      lead = (if o.plus then ascii "+" else []) ++ (if o.alternate then pre else []) →
      ((∀ w ∈ o.width, w ≤ (lead ++ digits).length) → o.pad_integral pre digits = lead ++ digits) ∧
      (o.zero = true → ∀ w ∈ o.width, (lead ++ digits).length < w → ∃ k,
        o.pad_integral pre digits = lead ++ List.replicate k (asciiByte '0') ++ digits ∧
        (o.pad_integral pre digits).length = w) ∧
      (o.zero = false → ∀ w ∈ o.width, (lead ++ digits).length < w → ∃ i j,
        o.pad_integral pre digits = (List.replicate i o.fill).flatten ++ (lead ++ digits) ++
          (List.replicate j o.fill).flatten ∧ i + j + (lead ++ digits).length = w ∧
        (o.align = some .Left → i = 0) ∧ (o.align = none ∨ o.align = some .Right → j = 0) ∧
        (o.align = some .Center → i = j ∨ i + 1 = j)) := by
    rintro pre digits lead rfl
    have hl : ∀ s p : List U8, (s ++ p ++ digits).length = digits.length + s.length + p.length := by
      intro s p; simp; omega
    simp only [hl]
    unfold FmtOpts.pad_integral
    simp only []
    generalize (if o.plus = true then ascii "+" else []) = s
    generalize (if o.alternate = true then pre else []) = p
    generalize hn : digits.length + s.length + p.length = len
    refine ⟨fun h => ?_, fun hz w hw h => ?_, fun hz w hw h => ?_⟩
    · cases hw : o.width with
      | none => simp
      | some w => simp only []; rw [if_pos (h w hw)]
    · rw [Option.mem_def.1 hw]; simp only []
      have e1 : w - len + len = w := Nat.sub_add_cancel (Nat.le_of_lt h)
      rw [if_neg (by omega), if_pos hz]
      refine ⟨w - len, ?_, ?_⟩
      · have : ∀ n, (List.replicate n (ascii "0")).flatten = List.replicate n (asciiByte '0') := by
          intro n; induction n with
          | zero => rfl
          | succ n ih => rw [List.replicate_succ, List.flatten_cons, ih]; rfl
        simp [FmtOpts.padding, this]
      · have : ∀ n, (List.replicate n (ascii "0")).flatten.length = n := by
          intro n; induction n with
          | zero => rfl
          | succ n ih => rw [List.replicate_succ, List.flatten_cons, List.length_append, ih, Nat.add_comm]; rfl
        simp only [FmtOpts.padding, Option.getD_some, List.length_append, this, Nat.sub_self]
        omega
    · rw [Option.mem_def.1 hw]; simp only []
      have e1 : w - len + len = w := Nat.sub_add_cancel (Nat.le_of_lt h)
      rw [if_neg (by omega), if_neg (by rw [hz]; nofun)]
      simp only [FmtOpts.padding]
      generalize w - len = q at e1 ⊢
      have e2 := half q
      generalize q / 2 = x at e2 ⊢
      have e3 : q - x + x = q := Nat.sub_add_cancel e2.1
      generalize q - x = y at e3 ⊢
      refine ⟨_, _, by simp only [List.append_assoc]; rfl, ?_, ?_, ?_, ?_⟩
      · cases o.align with
        | none => simp; omega
        | some a => cases a <;> simp <;> omega
      · intro e; rw [e]; rfl
      · rintro (e | e) <;> rw [e] <;> simp
      · intro e; rw [e]; simp; omega
  cases hx : o.hex with
  | none =>
    have a := key [] (decimal n) (leadText o) (by simp [leadText, hx])
    have e : o.integer n = o.pad_integral [] (decimal n) := by
      rw [FmtOpts.integer, hx]; simp only []; rw [fmtNat_eq, List.append_nil]
    have d : digitsText o.hex n = decimal n := by rw [hx]; rfl
    rw [← e, ← d] at a
    exact ⟨a.1, a.2.1, a.2.2⟩
  | some u =>
    have a := key (ascii "0x") (hexadecimal (hexLetters u) n) (leadText o) (by simp [leadText, hx])
    have e : o.integer n = o.pad_integral (ascii "0x") (hexadecimal (hexLetters u) n) := by
      rw [FmtOpts.integer, hx]; simp only []; rw [fmtHex_eq, List.append_nil]
    have d : digitsText o.hex n = hexadecimal (hexLetters u) n := by rw [hx]; exact digitsText_some u n
    rw [← e, ← d] at a
    exact ⟨a.1, a.2.1, a.2.2⟩

/-- The word as the formatter writes it. -/
theorem pad_text (o : FmtOpts) (w : List U8) : WordText o w (o.pad w) := by
  have e : o.pad w = (match o.width with
      | none => shown o w
      | some n => if (shown o w).length ≥ n then shown o w else
        (o.padding (n - (shown o w).length) .Left).1 ++ shown o w ++
          (o.padding (n - (shown o w).length) .Left).2) := by
    unfold FmtOpts.pad shown
    cases o.precision with
    | none => simp only [Option.getD_none, List.take_length]; rfl
    | some m => rfl
  rw [e]
  refine ⟨fun h => ?_, fun n hn h => ?_⟩
  · cases hw : o.width with
    | none => rfl
    | some n => simp only []; rw [if_pos (h n hw)]
  · rw [Option.mem_def.1 hn]; simp only []
    have e1 : n - (shown o w).length + (shown o w).length = n := Nat.sub_add_cancel (Nat.le_of_lt h)
    rw [if_neg (by omega)]
    simp only [FmtOpts.padding]
    generalize n - (shown o w).length = q at e1 ⊢
    have e2 := half q
    generalize q / 2 = x at e2 ⊢
    have e3 : q - x + x = q := Nat.sub_add_cancel e2.1
    generalize q - x = y at e3 ⊢
    refine ⟨_, _, rfl, ?_, ?_, ?_, ?_⟩
    · cases o.align with
      | none => simp; omega
      | some a => cases a <;> simp <;> omega
    · rintro (e | e) <;> rw [e] <;> rfl
    · intro e; rw [e]; simp
    · intro e; rw [e]; simp; omega

theorem zero_wordy (k : Nat) : Wordy (List.replicate k (asciiByte '0')) := fun b hb => by
  rw [(List.mem_replicate.1 hb).2]; decide

theorem wordy_append {a b : List U8} (ha : Wordy a) (hb : Wordy b) : Wordy (a ++ b) := fun x hx => by
  rcases List.mem_append.1 hx with h | h
  · exact ha x h
  · exact hb x h

/-- Padding, sign, zeros, digits, padding. -/
theorem integer_shape (o : FmtOpts) (n : Nat) : ∃ i k j, o.integer n =
    (List.replicate i o.fill).flatten ++
      (leadText o ++ (List.replicate k (asciiByte '0') ++ digitsText o.hex n)) ++
      (List.replicate j o.fill).flatten := by
  have t := integer_text o n
  by_cases h : ∀ w ∈ o.width, w ≤ (leadText o ++ digitsText o.hex n).length
  · exact ⟨0, 0, 0, by rw [t.unpadded h]; simp⟩
  · have : ∃ w ∈ o.width, (leadText o ++ digitsText o.hex n).length < w := by
      cases hw : o.width with
      | none => exact absurd (fun w h => by rw [hw] at h; cases h) h
      | some w =>
        refine ⟨w, rfl, Nat.lt_of_not_le fun g => h fun v hv => ?_⟩
        rw [hw] at hv; cases hv; exact g
    obtain ⟨w, hw, hl⟩ := this
    cases hz : o.zero with
    | true =>
      obtain ⟨k, e, _⟩ := t.zeros hz w hw hl
      exact ⟨0, k, 0, by rw [e]; simp⟩
    | false =>
      obtain ⟨i, j, e, _⟩ := t.filled hz w hw hl
      exact ⟨i, 0, j, by rw [e]; simp⟩

/-- Without the padding, sign and digits are left, with zeros at most. -/
theorem integer_bare {o : FmtOpts} (hf : Harmless o.fill) (n : Nat) : ∃ k,
    unfilled o.fill (o.integer n) = leadText o ++ (List.replicate k (asciiByte '0') ++ digitsText o.hex n) := by
  obtain ⟨i, k, j, e⟩ := integer_shape o n
  exact ⟨k, by rw [e, unfilled_append, unfilled_append, unfilled_fill, unfilled_fill,
    unfilled_wordy hf (wordy_append (leadText_wordy o) (wordy_append (zero_wordy k) (digitsText_wordy _ _))),
    List.nil_append, List.append_nil]⟩

/-- Without the padding, what the precision leaves of the text is left. -/
theorem pad_bare {o : FmtOpts} (hf : Harmless o.fill) {s : List U8} (h : Wordy s) :
    unfilled o.fill (o.pad s) = (match o.precision with | none => s | some m => s.take m) := by
  have k : ∀ s : List U8, Wordy s → unfilled o.fill (match o.width with
      | none => s
      | some w => if s.length ≥ w then s else
        (o.padding (w - s.length) .Left).1 ++ s ++ (o.padding (w - s.length) .Left).2) = s := by
    intro s h
    cases o.width with
    | none => exact unfilled_wordy hf h
    | some w =>
      simp only []
      split
      · exact unfilled_wordy hf h
      · rw [FmtOpts.padding, unfilled_append, unfilled_append, unfilled_fill, unfilled_fill,
          unfilled_wordy hf h]; simp
  unfold FmtOpts.pad
  cases o.precision with
  | none => exact k s h
  | some m => exact k (s.take m) fun b hb => h b (List.mem_of_mem_take hb)

/-! ### Reading it back -/

/-- What may follow a complete value. -/
def Stop (r : List U8) : Prop := ∀ b ∈ r.head?, b ∈ ascii ",)]}"

private theorem word_split {w w' r s : List U8} (h : Wordy w) (h' : Wordy w')
    (hr : ∀ b ∈ r.head?, wordByte b = false) (hs : ∀ b ∈ s.head?, wordByte b = false)
    (e : w ++ r = w' ++ s) : w = w' ∧ r = s := by
  induction w generalizing w' with
  | nil =>
    cases w' with
    | nil => exact ⟨rfl, e⟩
    | cons b t =>
      have : r = b :: (t ++ s) := e
      have a := hr b (by rw [this]; rfl)
      rw [h' b (by simp)] at a; cases a
  | cons b t ih =>
    cases w' with
    | nil =>
      have : b :: (t ++ r) = s := e
      have a := hs b (by rw [← this]; rfl)
      rw [h b (by simp)] at a; cases a
    | cons b' t' =>
      injection e with e1 e2
      obtain ⟨rfl, rfl⟩ := ih (fun x hx => h x (by simp [hx])) (fun x hx => h' x (by simp [hx])) e2
      exact ⟨by rw [e1], rfl⟩

private theorem stop_word {r : List U8} (h : Stop r) : ∀ b ∈ r.head?, wordByte b = false :=
  fun b hb => (by decide : ∀ b ∈ ascii ",)]}", wordByte b = false) b (h b hb)

private theorem op_word (k : DKind) (r : List U8) : ∀ b ∈ (k.op :: r).head?, wordByte b = false := by
  intro b hb; cases hb; cases k <;> decide

private theorem op_stop (k : DKind) (r : List U8) : ¬ Stop (k.op :: r) := by
  intro h; have := h k.op rfl; revert this; cases k <;> decide

private theorem op_inj {k k' : DKind} (h : k.op = k'.op) : k = k' := by
  revert h; cases k <;> cases k' <;> decide

private theorem cl_stop (k : DKind) (r : List U8) : Stop (k.cl :: r) := by
  intro b hb; cases hb; cases k <;> decide

private theorem comma_stop (r : List U8) : Stop (asciiByte ',' :: r) := by
  intro b hb; cases hb; decide

/-- A value does not begin with a closing bracket. -/
private theorem skel_head (tc : Bool) (k : DKind) (t : DTree) (h : t.WF) (x r : List U8) :
    t.skel tc ++ x ≠ k.cl :: r := by
  intro e
  cases t with
  | word w =>
    cases w with
    | nil => exact h.1 rfl
    | cons b w =>
      injection e with e1 _
      have := h.2 b (by simp)
      rw [e1] at this; revert this; cases k <;> decide
  | int n => exact h
  | padded w => exact h
  | node k' n es =>
    cases n with
    | nil =>
      injection e with e1 _
      revert e1; cases k <;> cases k' <;> decide
    | cons b n =>
      injection e with e1 _
      have := h.1 b (by simp)
      rw [e1] at this; revert this; cases k <;> decide

/-- Entries do not begin with a closing bracket. -/
private theorem skels_head (tc : Bool) (k : DKind) {l : List U8} {t : DTree} {es : DEntries}
    (h : DEntries.WF k (.cons l t es)) (k' : DKind) (x r : List U8) :
    DEntries.skel tc k (.cons l t es) ++ x ≠ k'.cl :: r := by
  intro e
  rw [DEntries.skel] at e
  have gen : k.tag l = [] → False := by
    intro hl; rw [hl, List.nil_append, List.append_assoc] at e
    exact skel_head tc k' t h.2.2.1 _ _ e
  cases k with
  | tuple => exact gen rfl
  | list => exact gen rfl
  | struct =>
    cases l with
    | nil =>
      injection e with e1 _
      revert e1; cases k' <;> decide
    | cons b l =>
      injection e with e1 _
      have := h.1 b (by simp)
      rw [e1] at this; revert this; cases k' <;> decide

/-- Labels are read up to the colon. -/
private theorem tag_split {k : DKind} {l l' r s : List U8} (h : Wordy l) (h' : Wordy l')
    (hn : k ≠ .struct → l = []) (hn' : k ≠ .struct → l' = [])
    (e : k.tag l ++ r = k.tag l' ++ s) : l = l' ∧ r = s := by
  cases k with
  | tuple => exact ⟨by rw [hn nofun, hn' nofun], e⟩
  | list => exact ⟨by rw [hn nofun, hn' nofun], e⟩
  | struct =>
    rw [DKind.tag, DKind.tag, List.append_assoc, List.append_assoc] at e
    have w : ∀ (x : List U8), ∀ b ∈ ([asciiByte ':'] ++ x).head?, wordByte b = false := by
      intro x b hb; cases hb; decide
    obtain ⟨rfl, e2⟩ := word_split h h' (w r) (w s) e
    injection e2 with _ e3
    exact ⟨rfl, e3⟩

mutual
theorem skel_split (tc : Bool) : ∀ (t t' : DTree) (r s : List U8), t.WF → t'.WF → Stop r → Stop s →
    t.skel tc ++ r = t'.skel tc ++ s → t = t' ∧ r = s
  | .word w, .word w', r, s, h, h', hr, hs, e => by
    obtain ⟨rfl, rfl⟩ := word_split h.2 h'.2 (stop_word hr) (stop_word hs) e
    exact ⟨rfl, rfl⟩
  | .int _, _, _, _, h, _, _, _, _ => h.elim
  | .padded _, _, _, _, h, _, _, _, _ => h.elim
  | .word _, .int _, _, _, _, h, _, _, _ => h.elim
  | .word _, .padded _, _, _, _, h, _, _, _ => h.elim
  | .node _ _ _, .int _, _, _, _, h, _, _, _ => h.elim
  | .node _ _ _, .padded _, _, _, _, h, _, _, _ => h.elim
  | .word w, .node k n es, r, s, h, h', hr, _, e => by
    simp only [DTree.skel, List.append_assoc, List.cons_append] at e
    obtain ⟨_, rfl⟩ := word_split h.2 h'.1 (stop_word hr) (op_word _ _) e
    exact absurd hr (op_stop _ _)
  | .node k n es, .word w, r, s, h, h', _, hs, e => by
    simp only [DTree.skel, List.append_assoc, List.cons_append] at e
    obtain ⟨_, rfl⟩ := word_split h.1 h'.2 (op_word _ _) (stop_word hs) e
    exact absurd hs (op_stop _ _)
  | .node k n es, .node k' n' es', r, s, h, h', _, _, e => by
    simp only [DTree.skel, List.append_assoc, List.cons_append, List.nil_append] at e
    obtain ⟨rfl, e2⟩ := word_split h.1 h'.1 (op_word _ _) (op_word _ _) e
    injection e2 with e3 e4
    obtain rfl := op_inj e3
    obtain ⟨rfl, e5⟩ := skels_split tc k es es' r s h.2 h'.2 e4
    exact ⟨rfl, e5⟩
theorem skels_split (tc : Bool) (k : DKind) : ∀ (es es' : DEntries) (r s : List U8), es.WF k → es'.WF k →
    es.skel tc k ++ (k.cl :: r) = es'.skel tc k ++ (k.cl :: s) → es = es' ∧ r = s
  | .nil, .nil, r, s, _, _, e => by injection e with _ e; exact ⟨rfl, e⟩
  | .nil, .cons l t es, r, s, _, h', e => absurd e.symm (skels_head tc k h' k _ _)
  | .cons l t es, .nil, r, s, h, _, e => absurd e (skels_head tc k h k _ _)
  | .cons l t es, .cons l' t' es', r, s, h, h', e => by
    simp only [DEntries.skel, List.append_assoc] at e
    obtain ⟨rfl, e2⟩ := tag_split h.1 h'.1 h.2.1 h'.2.1 e
    have st : ∀ (es : DEntries) (x : List U8),
        Stop ((if tc || es.more then [asciiByte ','] else []) ++ (es.skel tc k ++ k.cl :: x)) := by
      intro es x
      cases es with
      | cons => rw [show (tc || DEntries.more (.cons _ _ _)) = true by cases tc <;> rfl]; exact comma_stop _
      | nil => cases tc
               · exact cl_stop k x
               · exact comma_stop _
    obtain ⟨rfl, e3⟩ := skel_split tc t t' _ _ h.2.2.1 h'.2.2.1 (st es r) (st es' s) e2
    have e4 : es.skel tc k ++ (k.cl :: r) = es'.skel tc k ++ (k.cl :: s) := by
      cases es with
      | nil =>
        cases es' with
        | nil => exact List.append_cancel_left e3
        | cons =>
          cases tc with
          | true => exact List.append_cancel_left (as := [asciiByte ',']) e3
          | false =>
            injection e3 with e5 _
            exfalso; revert e5; cases k <;> decide
      | cons =>
        cases es' with
        | nil =>
          cases tc with
          | true => exact List.append_cancel_left (as := [asciiByte ',']) e3
          | false =>
            injection e3 with e5 _
            exfalso; revert e5; cases k <;> decide
        | cons =>
          cases tc <;> exact List.append_cancel_left (as := [asciiByte ',']) e3
    obtain ⟨rfl, e6⟩ := skels_split tc k es es' r s h.2.2.2 h'.2.2.2 e4
    exact ⟨rfl, e6⟩
end

theorem skel_inj (tc : Bool) {t t' : DTree} (h : t.WF) (h' : t'.WF) (e : t.skel tc = t'.skel tc) :
    t = t' :=
  (skel_split tc t t' [] [] h h' nofun nofun (by rw [e])).1

/-! ### Commas before closing brackets -/

private theorem closing_iff (b : U8) : closing b = true ↔ ∃ k : DKind, k.cl = b := by
  refine ⟨fun h => ?_, ?_⟩
  · rcases (by decide : ∀ b : U8, closing b = true →
      b = DKind.tuple.cl ∨ b = DKind.struct.cl ∨ b = DKind.list.cl) b h with h | h | h
    · exact ⟨_, h.symm⟩
    · exact ⟨_, h.symm⟩
    · exact ⟨_, h.symm⟩
  · rintro ⟨k, rfl⟩; cases k <;> rfl

private theorem untrail_cons {b : U8} (h : b ≠ asciiByte ',') (r : List U8) :
    untrail (b :: r) = b :: untrail r := by
  cases r with
  | nil => rfl
  | cons c r => rw [untrail, if_neg fun x => h x.1]

private theorem untrail_append {w : List U8} (h : ∀ b ∈ w, b ≠ asciiByte ',') (r : List U8) :
    untrail (w ++ r) = w ++ untrail r := by
  induction w with
  | nil => rfl
  | cons b w ih =>
    rw [List.cons_append, untrail_cons (h b (by simp)), ih fun b hb => h b (by simp [hb])]; rfl

private theorem wordy_commaless {w : List U8} (h : Wordy w) : ∀ b ∈ w, b ≠ asciiByte ',' := by
  intro b hb e; have := h b hb; rw [e] at this; revert this; decide

private theorem tag_commaless (k : DKind) {l : List U8} (h : Wordy l) :
    ∀ b ∈ k.tag l, b ≠ asciiByte ',' := by
  intro b hb
  cases k with
  | tuple => cases hb
  | list => cases hb
  | struct =>
    rcases List.mem_append.1 hb with hb | hb
    · exact wordy_commaless h b hb
    · rw [List.mem_singleton.1 hb]; decide

mutual
theorem untrail_skel : ∀ (t : DTree) (r : List U8), t.WF →
    untrail (t.skel true ++ r) = t.skel false ++ untrail r
  | .word w, r, h => untrail_append (wordy_commaless h.2) r
  | .int _, _, h => h.elim
  | .padded _, _, h => h.elim
  | .node k n es, r, h => by
    have o : k.op ≠ asciiByte ',' := by cases k <;> decide
    have c : k.cl ≠ asciiByte ',' := by cases k <;> decide
    simp only [DTree.skel, List.append_assoc, List.cons_append, List.nil_append]
    rw [untrail_append (wordy_commaless h.1), untrail_cons o, untrail_skels k es r h.2]
theorem untrail_skels (k : DKind) : ∀ (es : DEntries) (r : List U8), es.WF k →
    untrail (es.skel true k ++ k.cl :: r) = es.skel false k ++ k.cl :: untrail r
  | .nil, r, _ => untrail_cons (by cases k <;> decide) r
  | .cons l t .nil, r, h => by
    have c : closing k.cl = true := (closing_iff _).2 ⟨k, rfl⟩
    simp only [DEntries.skel, List.append_assoc, List.cons_append, List.nil_append, DEntries.more,
      Bool.or_false, if_true, Bool.false_eq_true, if_false]
    rw [untrail_append (tag_commaless k h.1), untrail_skel t _ h.2.2.1, untrail, if_pos ⟨rfl, c⟩,
      untrail_cons (by cases k <;> decide)]
  | .cons l t (.cons l' t' es), r, h => by
    have e := untrail_skels k (.cons l' t' es) r h.2.2.2
    have nh := skels_head true k h.2.2.2
    generalize (DEntries.cons l' t' es) = es' at *
    have e1 : (DEntries.more es') = true := by
      cases es' with
      | nil => exact absurd rfl (nh k (k.cl :: []) [])
      | cons => rfl
    simp only [DEntries.skel, List.append_assoc, List.cons_append, List.nil_append, e1, Bool.or_true,
      if_true]
    rw [untrail_append (tag_commaless k h.1), untrail_skel t _ h.2.2.1, ← e]
    congr 2
    have key : ∀ x : List U8, x.head?.all (fun b => !closing b) = true →
        untrail (asciiByte ',' :: x) = asciiByte ',' :: untrail x := by
      intro x hx
      cases x with
      | nil => rfl
      | cons b x =>
        rw [untrail, if_neg]
        intro ⟨_, hc⟩
        simp [hc] at hx
    apply key
    cases hx : es'.skel true k ++ k.cl :: r with
    | nil => rfl
    | cons b x =>
      cases hc : closing b with
      | false => simp [hc]
      | true =>
        obtain ⟨k', rfl⟩ := (closing_iff b).1 hc
        exact absurd hx (nh k' _ _)
end

end ShogiCore
