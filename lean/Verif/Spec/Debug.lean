import Verif.Model.Debug
import Verif.Spec.Text
import Verif.Spec.Parse

/- What is expected of the texts of `{:?}` and `{:#?}`. -/

namespace ShogiCore

/-- Neither a space nor a line break. -/
def inked (b : U8) : Bool := b != asciiByte ' ' && b != asciiByte '\n'

/-- A text without its spaces and line breaks. -/
def unspaced (l : List U8) : List U8 := l.filter inked

/-- A closing bracket. -/
def closing (b : U8) : Bool := b == asciiByte ')' || b == asciiByte ']' || b == asciiByte '}'

/-- A text without the commas that stand before closing brackets. -/
def untrail : List U8 → List U8
  | [] => []
  | [b] => [b]
  | b :: c :: r => if b = asciiByte ',' ∧ closing c = true then untrail (c :: r) else b :: untrail (c :: r)

/-- Texts tell values apart exactly as `==` does: under `{:?}`, under `{:#?}`, and even if the
layout is lost; and the two forms differ in spaces, line breaks and commas before closing brackets
only. -/
structure FaithfulDebug (α : Type) [Debug α] (eq : α → α → Bool) : Prop where
  text : ∀ a b : α, eq a b = true ↔ debugText a = debugText b
  pretty : ∀ a b : α, eq a b = true ↔ debugPretty a = debugPretty b
  loose : ∀ a b : α, eq a b = true ↔ unspaced (debugText a) = unspaced (debugText b)
  loose_pretty : ∀ a b : α, eq a b = true ↔ unspaced (debugPretty a) = unspaced (debugPretty b)
  layout : ∀ a : α, untrail (unspaced (debugPretty a)) = unspaced (debugText a)

/-- The texts of a `Vec` and of an array are written the same way: `[a, b, c]`. -/
def listText (l : List (List U8)) : List U8 :=
  ascii "[" ++ (l.intersperse (ascii ", ")).flatten ++ ascii "]"

/-- `Name(a)`. -/
def newtypeText (name : String) (a : List U8) : List U8 := ascii name ++ ascii "(" ++ a ++ ascii ")"

/-! ### Options -/

/-- A byte that says something in a text of `{:?}`: letters, digits and `_ + ( ) [ ] { } , :`. -/
def meaningful (b : U8) : Bool :=
  isDigit b || (decide (65 ≤ b.toNat) && decide (b.toNat ≤ 90)) ||
  (decide (97 ≤ b.toNat) && decide (b.toNat ≤ 122)) || (ascii "_+()[]{},:").contains b

/-- Options under which texts stay readable: the fill character says nothing, and not all of `true`
and `false` is cut off. -/
structure FmtOpts.Readable (o : FmtOpts) : Prop where
  fill : ∀ b ∈ o.fill, meaningful b = false
  precision : o.precision ≠ some 0

/-- A text without its spaces, line breaks and fill characters. -/
def unfilled (f : List U8) (l : List U8) : List U8 := l.filter fun b => inked b && !f.contains b

/-- Texts with the options `o` tell values apart exactly as `==` does, on one line or on many, even if
the layout and the padding are lost; unless numbers are in hexadecimal, where only `#` writes `0x`, the
two forms differ in layout and commas before closing brackets only. -/
structure FaithfulWith (o : FmtOpts) (α : Type) [Debug α] (eq : α → α → Bool) : Prop where
  text : ∀ a b : α, eq a b = true ↔ debugWith o a = debugWith o b
  loose : ∀ a b : α, eq a b = true ↔
    unfilled o.fill (debugWith o a) = unfilled o.fill (debugWith o b)
  layout : o.hex = none → ∀ a : α,
    untrail (unfilled o.fill (debugWith { o with alternate := true } a)) =
      unfilled o.fill (debugWith { o with alternate := false } a)

/-- A number in base 16, with the given digits. -/
def hexadecimal (letters : List U8) (n : Nat) : List U8 :=
  if n < 16 then [letters.getD n 0]
  else hexadecimal letters (n / 16) ++ [letters.getD (n % 16) 0]

/-- The digits of a number: decimal, or hexadecimal with small or capital letters. -/
def digitsText (hex : Option Bool) (n : Nat) : List U8 :=
  match hex with
  | none => decimal n
  | some false => hexadecimal (ascii "0123456789abcdef") n
  | some true => hexadecimal (ascii "0123456789ABCDEF") n

/-- What comes before the digits: `+` if asked for, `0x` for hexadecimal numbers under `#`. -/
def leadText (o : FmtOpts) : List U8 :=
  (if o.plus then ascii "+" else []) ++ (if o.alternate && o.hex.isSome then ascii "0x" else [])

/-- The text of a number: never shorter than the width; if it has to be longer than the digits it is
filled up with zeros behind the sign, or with the fill character on the side opposite to the
alignment, to the left if nothing is said. -/
structure NumberText (o : FmtOpts) (n : Nat) (l : List U8) : Prop where
  unpadded : (∀ w ∈ o.width, w ≤ (leadText o ++ digitsText o.hex n).length) →
    l = leadText o ++ digitsText o.hex n
  zeros : o.zero = true → ∀ w ∈ o.width, (leadText o ++ digitsText o.hex n).length < w → ∃ k,
    l = leadText o ++ List.replicate k (asciiByte '0') ++ digitsText o.hex n ∧ l.length = w
  filled : o.zero = false → ∀ w ∈ o.width, (leadText o ++ digitsText o.hex n).length < w → ∃ i j,
    l = (List.replicate i o.fill).flatten ++ (leadText o ++ digitsText o.hex n) ++
      (List.replicate j o.fill).flatten ∧
    i + j + (leadText o ++ digitsText o.hex n).length = w ∧
    (o.align = some .Left → i = 0) ∧ (o.align = none ∨ o.align = some .Right → j = 0) ∧
    (o.align = some .Center → i = j ∨ i + 1 = j)

/-- What the precision leaves of a word. -/
def shown (o : FmtOpts) (w : List U8) : List U8 := w.take (o.precision.getD w.length)

/-- The text of a word that is subject to the width (`true`, `false`): cut to the precision, then filled
up on the side opposite to the alignment, to the right if nothing is said; zeros are not used. -/
structure WordText (o : FmtOpts) (w l : List U8) : Prop where
  unpadded : (∀ n ∈ o.width, n ≤ (shown o w).length) → l = shown o w
  filled : ∀ n ∈ o.width, (shown o w).length < n → ∃ i j,
    l = (List.replicate i o.fill).flatten ++ shown o w ++ (List.replicate j o.fill).flatten ∧
    i + j + (shown o w).length = n ∧
    (o.align = none ∨ o.align = some .Left → i = 0) ∧ (o.align = some .Right → j = 0) ∧
    (o.align = some .Center → i = j ∨ i + 1 = j)

end ShogiCore
