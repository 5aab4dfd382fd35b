import Verif.Model.Derive

/- Models the methods that `Bitboard` inherits from `core`'s `Iterator` (bitboard.rs:358-368 gives
`next` and `size_hint` only). -/

namespace ShogiCore

/-- Anything that calls `next` again and again (the provided methods and the adaptors of
`Iterator`, bitboard.rs:358): `step` gets what `next` returned and either goes on with a new state
or finishes with a result.  The iterator is returned as it is left (`by_ref`).  `fuel` bounds the
number of calls; `none`: not finished by then. -/
def drive {I α S R : Type} (next : I → Res (I × Option α)) (step : S → Option α → Res (S ⊕ R)) :
    Nat → S → I → Res (Option (R × I))
  | 0, _, _ => .ok none
  | fuel + 1, s, it => do
    let (it, o) ← next it
    match ← step s o with
    | .inr r => return some (r, it)
    | .inl s => drive next step fuel s it

/-- `next` of a list (what bitboard.rs:358-368 is compared with): its head. -/
def listNext {α : Type} : List α → Res (List α × Option α)
  | [] => .ok ([], none)
  | a :: l => .ok (l, some a)

namespace Iter

variable {α β : Type}

/-- `core`: `Iterator::fold`, and `for_each` (for bitboard.rs:358). -/
def fold (f : β → α → β) : β → Option α → Res (β ⊕ β)
  | b, some a => .ok (.inl (f b a))
  | b, none => .ok (.inr b)

/-- `core`: `Iterator::nth` (for bitboard.rs:358). -/
def nth : Nat → Option α → Res (Nat ⊕ Option α)
  | _, none => .ok (.inr none)
  | 0, some a => .ok (.inr (some a))
  | n + 1, some _ => .ok (.inl n)

/-- `core`: `Iterator::last` (for bitboard.rs:358). -/
def last : Option α → Option α → Res (Option α ⊕ Option α) := fold fun _ a => some a

/-- `core`: `Iterator::count`, hidden by the inherent `Bitboard::count` (bitboard.rs:80) unless
called by its full name. -/
def count : Nat → Option α → Res (Nat ⊕ Nat) := fold fun n _ => n + 1

/-- `core`: `Iterator::collect` into a `Vec` (for bitboard.rs:358). -/
def collect : List α → Option α → Res (List α ⊕ List α) := fold fun l a => l ++ [a]

/-- `core`: `Iterator::min_by` with the elements' `cmp`: of equal elements the first
(for bitboard.rs:358). -/
def min (cmp : α → α → Ordering) : Option α → Option α → Res (Option α ⊕ Option α) :=
  fold fun o a => match o with
    | none => some a
    | some b => if cmp b a = .gt then some a else some b

/-- `core`: `Iterator::max_by` with the elements' `cmp`: of equal elements the last
(for bitboard.rs:358). -/
def max (cmp : α → α → Ordering) : Option α → Option α → Res (Option α ⊕ Option α) :=
  fold fun o a => match o with
    | none => some a
    | some b => if cmp b a = .gt then some b else some a

/-- `core`: `Iterator::find` (for bitboard.rs:358). -/
def find (p : α → Bool) : Unit → Option α → Res (Unit ⊕ Option α)
  | _, none => .ok (.inr none)
  | _, some a => .ok (if p a then .inr (some a) else .inl ())

/-- `core`: `Iterator::position` (for bitboard.rs:358). -/
def position (p : α → Bool) : Nat → Option α → Res (Nat ⊕ Option Nat)
  | _, none => .ok (.inr none)
  | n, some a => .ok (if p a then .inr (some n) else .inl (n + 1))

/-- `core`: `Iterator::cmp` (`iter_compare`): the other iterator is asked after this one
(for bitboard.rs:358). -/
def cmp {J : Type} (next : J → Res (J × Option α)) (cmp : α → α → Ordering) :
    J → Option α → Res (J ⊕ Ordering)
  | it, some a => do
    let (it, o) ← next it
    match o with
    | none => return .inr .gt
    | some b => return if cmp a b = .eq then .inl it else .inr (cmp a b)
  | it, none => do
    let (_, o) ← next it
    match o with
    | none => return .inr .eq
    | some _ => return .inr .lt

end Iter

namespace Bitboard

variable [Profile]

/-- bitboard.rs:361-363 `Iterator::next`. -/
def next (self : Bitboard) : Res (Bitboard × Option Square) := self.pop

end Bitboard
end ShogiCore
