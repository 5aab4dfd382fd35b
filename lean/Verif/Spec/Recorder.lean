import Verif.Spec.Boxed

/- The memory a list of moves needs if it is recorded one by one in a buffer that cannot be
extended in place. -/

namespace ShogiCore

/-- After `n` moves: how many fit into the present buffer, and how many would fit into all buffers
used so far together. -/
def room (grow : Nat → Nat) : Nat → Nat × Nat
  | 0 => (0, 0)
  | n + 1 =>
    let (c, t) := room grow n
    if n = c then (grow c, t + grow c) else (c, t)

/-- Doubling, starting with 4. -/
def doubling (c : Nat) : Nat := max 4 (2 * c)

/-- The bytes used for the moves of all handles in `hs`, each move taking `z` bytes. -/
def recorded (grow : Nat → Nat) (z : Nat) (es : List BoxEvent) (hs : List Nat) : Nat :=
  (hs.map fun a => z * (room grow (acceptedBy a es).length).2).sum

/-- The moves accepted through any handle. -/
def acceptedAll (es : List BoxEvent) : List Move :=
  es.filterMap fun e => match e with | .move _ mv true => some mv | _ => none

end ShogiCore
