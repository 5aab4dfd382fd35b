import Verif.Model.Square
import Verif.Model.Piece

/- Models shogi_core/src/mv.rs. -/

namespace ShogiCore

/-- mv.rs:9-28 `enum Move`. -/
inductive Move where
  | Normal (src to : Square) (promote : Bool)
  | Drop (piece : Piece) (to : Square)
  deriving DecidableEq, Repr

namespace Move

/-- mv.rs:39-44 `Move::from`. -/
def src : Move → Option Square
  | .Normal s _ _ => some s
  | .Drop _ _ => none

/-- mv.rs:54-59 `Move::to`. -/
def to : Move → Square
  | .Normal _ t _ => t
  | .Drop _ t => t

/-- mv.rs:62-64 `Move::is_promoting`. -/
def is_promoting : Move → Bool
  | .Normal _ _ true => true
  | _ => false

/-- mv.rs:68-70 `Move::is_drop`. -/
def is_drop : Move → Bool
  | .Drop _ _ => true
  | _ => false

variable [Profile]

/-- mv.rs:146-167 `ToUsi for Move`. -/
def to_usi {W : Type} [Write W] (self : Move) : FmtM W Unit :=
  match self with
  | .Normal src to promote => do
    src.to_usi
    to.to_usi
    if promote then
      write_ascii_byte (asciiByte '+')
  | .Drop piece to => do
    let piece_kind ← FmtM.lift piece.piece_kind
    piece_kind.to_usi
    write_ascii_byte (asciiByte '*')
    to.to_usi

end Move

/-- mv.rs:178 `struct CompactMove(NonZeroU16)`. -/
structure CompactMove where
  val : U16
  deriving DecidableEq, Repr

/-- mv.rs:305 `struct OptionCompactMove(u16)`. -/
structure OptionCompactMove where
  val : U16
  deriving DecidableEq, Repr

namespace OptionCompactMove

/-- mv.rs:309-314 `From<Option<CompactMove>> for OptionCompactMove`. -/
def ofOption (arg : Option CompactMove) : OptionCompactMove :=
  ⟨match arg with
   | some result => result.val
   | none => 0⟩

/-- mv.rs:319-321 `From<OptionCompactMove> for Option<CompactMove>`. -/
def toOption (arg : OptionCompactMove) : Option CompactMove :=
  if arg.val = 0 then none else some ⟨arg.val⟩

end OptionCompactMove

namespace CompactMove

/-- `promote as u16` (mv.rs:184, 225). -/
def boolU16 (b : Bool) : U16 := if b then 1 else 0

variable [Profile]

/-- mv.rs:224-228 `CompactMove::normal`. -/
def normal (src to : Square) (promote : Bool) : Res CompactMove := do
  let value : U16 :=
    (boolU16 promote) <<< 15 ||| (cast 16 (← src.index)) <<< 8 ||| cast 16 (← to.index)
  return ⟨← nonzero_new_unchecked value⟩

/-- mv.rs:240-244 `CompactMove::drop`. -/
def drop (piece : Piece) (to : Square) : Res CompactMove := do
  let value : U16 := (cast 16 piece.as_u8) <<< 8 ||| 128 ||| cast 16 (← to.index)
  return ⟨← nonzero_new_unchecked value⟩

/-- mv.rs:180-191 `From<Move> for CompactMove`. -/
def ofMove (mv : Move) : Res CompactMove := do
  let value : U16 ← match mv with
    | .Normal src to promote => do
      pure ((boolU16 promote) <<< 15 ||| (cast 16 (← src.index)) <<< 8 ||| cast 16 (← to.index))
    | .Drop piece to => do
      pure ((cast 16 piece.as_u8) <<< 8 ||| 128 ||| cast 16 (← to.index))
  return ⟨← nonzero_new_unchecked value⟩

/-- mv.rs:267-271 `CompactMove::to`. -/
def to (self : CompactMove) : Res Square :=
  Square.from_u8_unchecked (cast 8 (self.val &&& 127))

omit [Profile] in
/-- mv.rs:275-277 `CompactMove::is_promoting`. -/
def is_promoting (self : CompactMove) : Bool := (self.val &&& 32768) != 0

omit [Profile] in
/-- mv.rs:282-284 `CompactMove::is_drop`. -/
def is_drop (self : CompactMove) : Bool := (self.val &&& 128) != 0

/-- mv.rs:247-257 `CompactMove::from`. -/
def src (self : CompactMove) : Res (Option Square) :=
  if self.is_drop then .ok none
  else do
    let s := cast 8 ((self.val >>> 8) &&& 127)
    return some (← Square.from_u8_unchecked s)

/-- mv.rs:193-210 `From<CompactMove> for Move`. -/
def toMove (mv : CompactMove) : Res Move := do
  let to ← mv.to
  let inner := mv.val
  if mv.is_drop then
    let piece := cast 8 (inner >>> 8)
    let piece ← Piece.from_u8_unchecked piece
    return .Drop piece to
  else
    let s := cast 8 ((inner >>> 8) &&& 127)
    let s ← Square.from_u8_unchecked s
    let promote := (inner &&& 32768) != 0
    return .Normal s to promote

/-- mv.rs:293-297 `ToUsi for CompactMove`. -/
def to_usi {W : Type} [Write W] (self : CompactMove) : FmtM W Unit := do
  (← FmtM.lift self.toMove).to_usi

end CompactMove
end ShogiCore
