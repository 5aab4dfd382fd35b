import Verif.Model.Prelude

/-
Models shogi_core/src/common.rs and the `core::fmt::Write` interface it writes to
(also shogi_core/src/to_usi.rs, whose trait is just "something with a `to_usi` writer").
-/

namespace ShogiCore

/-- `core::fmt::Write`, restricted to the one method the crate calls (`write_str`):
an arbitrary sink state with an arbitrary write, which may succeed (`true`), fail
(`false`), panic, or hit UB.  (to_usi.rs:9; the only calls are of the kind common.rs:56.) -/
class Write (W : Type) where
  write_str : W → List U8 → Res (W × Bool)

/-- A computation returning `core::fmt::Result` (or a value under `?`) while writing to a
sink: `none` is `Err(fmt::Error)`.  The sink state survives an error.
(common.rs:3, to_usi.rs:9.) -/
def FmtM (W : Type) (α : Type) := W → Res (W × Option α)

namespace FmtM

/-- Sequencing with `?`: an `Err` returns immediately (e.g. common.rs:12). -/
def bind {W : Type} {α β : Type} (x : FmtM W α) (f : α → FmtM W β) : FmtM W β := fun w =>
  match x w with
  | .ok (w', some a) => f a w'
  | .ok (w', none) => .ok (w', none)
  | .panic => .panic
  | .ub => .ub

/-- Writers run in sequence (e.g. common.rs:12-13). -/
instance {W : Type} : Monad (FmtM W) where
  pure a := fun w => .ok (w, some a)
  bind := FmtM.bind

/-- Run a non-writing Rust computation (e.g. the addition in common.rs:6). -/
def lift {W : Type} {α : Type} (x : Res α) : FmtM W α := fun w =>
  match x with
  | .ok a => .ok (w, some a)
  | .panic => .panic
  | .ub => .ub

end FmtM

/-- `sink.write_str(s)` (e.g. common.rs:56). -/
def write_str {W : Type} [Write W] (s : List U8) : FmtM W Unit := fun w =>
  match Write.write_str w s with
  | .ok (w', true) => .ok (w', some ())
  | .ok (w', false) => .ok (w', none)
  | .panic => .panic
  | .ub => .ub

/-- `alloc::string::String` as a sink: `write_str` appends and never fails.  (Allocation
failure aborts the process and is outside the model.)  Used by to_usi.rs:14-20. -/
instance : Write (List U8) where
  write_str s t := .ok (s ++ t, true)

/-- common.rs:50-57 `write_ascii_byte`: `from_utf8_unchecked` on a non-ASCII single byte
is UB. -/
def write_ascii_byte {W : Type} [Write W] (b : U8) : FmtM W Unit := do
  if 128 ≤ b.toNat then FmtM.lift .ub
  write_str [b]

variable [Profile]

/-- common.rs:3-25 `write_u8`. (`/` and `%` by non-zero literals cannot overflow.) -/
def write_u8 {W : Type} [Write W] (value : U8) : FmtM W Unit := do
  if value.toNat ≤ 9 then
    write_ascii_byte (← FmtM.lift (cadd value (asciiByte '0')))
  else if value.toNat ≤ 99 then
    let value1 := value / 10
    let value2 := value % 10
    write_ascii_byte (← FmtM.lift (cadd value1 (asciiByte '0')))
    write_ascii_byte (← FmtM.lift (cadd value2 (asciiByte '0')))
  else
    let value1 := value / 100
    let value2 := (value / 10) % 10
    let value3 := value % 10
    write_ascii_byte (← FmtM.lift (cadd value1 (asciiByte '0')))
    write_ascii_byte (← FmtM.lift (cadd value2 (asciiByte '0')))
    write_ascii_byte (← FmtM.lift (cadd value3 (asciiByte '0')))

/-- common.rs:35-43, the loop of `write_u16` over the remaining bases, with the loop
variables `value` and `displayed`. -/
def write_u16_loop {W : Type} [Write W] : List U16 → U16 → Bool → FmtM W Unit
  | [], _, _ => pure ()
  | base :: rest, value, displayed => do
    let digit := value / base
    if displayed || digit != 0 then
      write_ascii_byte (← FmtM.lift (cadd (cast 8 digit) (asciiByte '0')))
      let prod ← FmtM.lift (cmul digit base)
      let value' ← FmtM.lift (csub value prod)
      write_u16_loop rest value' true
    else
      let prod ← FmtM.lift (cmul digit base)
      let value' ← FmtM.lift (csub value prod)
      write_u16_loop rest value' displayed

/-- common.rs:29-45 `write_u16`. -/
def write_u16 {W : Type} [Write W] (value : U16) : FmtM W Unit := do
  if value = 0 then
    write_ascii_byte (asciiByte '0')
  else
    write_u16_loop ([1, 10, 100, 1000, 10000] : List U16).reverse value false

/-- to_usi.rs:14-20 `ToUsi::to_usi_owned`, given the implementor's `to_usi`. -/
def to_usi_owned (to_usi : FmtM (List U8) Unit) : Res (List U8) := do
  let (s, result) ← to_usi []
  debug_assert (.ok (result == some ()))     -- debug_assert_eq!(result, Ok(()))
  return s

end ShogiCore
