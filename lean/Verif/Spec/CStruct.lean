import Verif.Model.Layout
import Verif.Spec.Alloc
import Verif.Spec.Position

/- C programs with `PartialPosition` variables and character buffers: what they do in memory
through the exported functions, and what they mean in terms of the Rust functions. -/

namespace ShogiCore

/-- Statements of a C program; variables and buffers are numbered. -/
inductive CStmt
  /-- `PartialPosition_startpos(&x);` -/
  | startpos (x : Nat)
  /-- `PartialPosition_make_compact_move(&x, mv)` -/
  | move (x : Nat) (mv : Move)
  /-- `x = y;` -/
  | assign (x y : Nat)
  /-- `PartialPosition_to_sfen_c(&x, b);` -/
  | sfen (x b : Nat)

/-- Where the compiler has put the variables and the buffers. -/
structure CFrame where
  var : Nat → Nat
  buf : Nat → Nat

/-- There is room: `nv` variables of the size and alignment of the header's struct, `nb` buffers
of the documented 139 bytes (include/shogi_core.h:816), all accessible and disjoint. -/
structure CFrame.Fits [Target] (fr : CFrame) (nv nb : Nat) (m : Mem) : Prop where
  align : ∀ x < nv, fr.var x % (CTy.struct headerFields).align = 0
  var : ∀ x < nv, m.Accessible (fr.var x) (CTy.struct headerFields).size
  buf : ∀ b < nb, m.Accessible (fr.buf b) 139
  vars : ∀ x < nv, ∀ y < nv, x ≠ y →
    fr.var x + (CTy.struct headerFields).size ≤ fr.var y ∨
    fr.var y + (CTy.struct headerFields).size ≤ fr.var x
  bufs : ∀ b < nb, ∀ c < nb, b ≠ c → fr.buf b + 139 ≤ fr.buf c ∨ fr.buf c + 139 ≤ fr.buf b
  apart : ∀ x < nv, ∀ b < nb,
    fr.var x + (CTy.struct headerFields).size ≤ fr.buf b ∨ fr.buf b + 139 ≤ fr.var x

/-- An address of no variable and no buffer. -/
def CFrame.Outside [Target] (fr : CFrame) (nv nb : Nat) (a : Nat) : Prop :=
  (∀ x < nv, a < fr.var x ∨ fr.var x + (CTy.struct headerFields).size ≤ a) ∧
  ∀ b < nb, a < fr.buf b ∨ fr.buf b + 139 ≤ a

/-- The statement uses declared variables and buffers, valid moves, and reads no variable outside
the initialised ones `I`. -/
def CStmt.WellFormed (nv nb : Nat) (I : List Nat) : CStmt → Prop
  | startpos x => x < nv
  | move x mv => x ∈ I ∧ mv.Valid
  | assign x y => x < nv ∧ y ∈ I
  | sfen x b => x ∈ I ∧ b < nb

/-- The variable that is certainly initialised after the statement. -/
def CStmt.inits : CStmt → List Nat
  | startpos x => [x]
  | assign x _ => [x]
  | _ => []

/-- Every statement is well formed given the ones before it. -/
def CWellFormed (nv nb : Nat) : List Nat → List CStmt → Prop
  | _, [] => True
  | I, c :: cs => c.WellFormed nv nb I ∧ CWellFormed nv nb (c.inits ++ I) cs

variable [Profile]

/-- What a statement does in memory; the result is that of the call. -/
def CStmt.exec [Target] (fr : CFrame) (m : Mem) : CStmt → Res (Mem × Option Bool)
  | startpos x => do return (← startpos_ptr m (fr.var x), none)
  | move x mv => do
    let (m, b) ← make_compact_move_ptr m (fr.var x) (← CompactMove.ofMove mv)
    return (m, some b)
  | assign x y => do return (← assign_ptr m (fr.var x) (fr.var y), none)
  | sfen x b => do return (← to_sfen_c_ptr m (fr.var x) (fr.buf b), none)

/-- A program in memory. -/
def CExec [Target] (fr : CFrame) : Mem → List CStmt → Res (Mem × List (Option Bool))
  | m, [] => .ok (m, [])
  | m, c :: cs => do
    let (m, o) ← c.exec fr m
    let (m, os) ← CExec fr m cs
    return (m, o :: os)

/-- The values of the variables and the texts in the buffers, once set. -/
structure CVals where
  pos : Nat → Option PartialPosition
  txt : Nat → Option (List U8)

/-- Nothing is set. -/
def CVals.none : CVals := ⟨fun _ => .none, fun _ => .none⟩

/-- Setting one variable. -/
def CVals.setPos (v : CVals) (x : Nat) (p : PartialPosition) : CVals :=
  { v with pos := fun y => if y = x then some p else v.pos y }

/-- Setting one buffer. -/
def CVals.setTxt (v : CVals) (b : Nat) (t : List U8) : CVals :=
  { v with txt := fun c => if c = b then some t else v.txt c }

/-- What a statement means: the Rust functions applied to values. -/
def CStmt.mean (v : CVals) : CStmt → Option (CVals × Option Bool)
  | startpos x =>
    match PartialPosition.startpos with
    | .ok p => some (v.setPos x p, .none)
    | _ => .none
  | move x mv =>
    match v.pos x with
    | some p =>
      match p.make_move mv with
      | .ok (q, r) => some (v.setPos x q, some r.isSome)
      | _ => .none
    | .none => .none
  | assign x y =>
    match v.pos y with
    | some p => some (v.setPos x p, .none)
    | .none => .none
  | sfen x b =>
    match v.pos x with
    | some p =>
      match p.to_sfen_owned with
      | .ok t => some (v.setTxt b t, .none)
      | _ => .none
    | .none => .none

/-- What a program means. -/
def CMean : CVals → List CStmt → Option (CVals × List (Option Bool))
  | v, [] => some (v, [])
  | v, c :: cs =>
    match c.mean v with
    | some (v, o) =>
      match CMean v cs with
      | some (v, os) => some (v, o :: os)
      | .none => .none
    | .none => .none

omit [Profile] in
/-- The C string at `a`. -/
def Mem.CString (m : Mem) (a : Nat) (t : List U8) : Prop :=
  (∀ i (h : i < t.length), m (a + i) = some t[i]) ∧ m (a + t.length) = some 0

end ShogiCore
