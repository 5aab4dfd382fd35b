import Verif.Model.Boxed
import Verif.Spec.Position
import Verif.Spec.Alloc

/- What users of the boxed positions of the C interface count on, read off the list of events. -/

namespace ShogiCore

namespace BoxEvent

/-- The moves passed in are moves of the API. -/
def Valid : BoxEvent → Prop
  | .move _ mv _ => mv.Valid
  | _ => True

/-- The handle made by an event. -/
def created? : BoxEvent → Option Nat
  | .create a => some a
  | _ => none

/-- The move of an event, if it was made through handle `a` and accepted. -/
def accepted? (a : Nat) : BoxEvent → Option Move
  | .move b mv true => if b = a then some mv else none
  | _ => none

end BoxEvent

/-- The handles made, oldest first. -/
def created (es : List BoxEvent) : List Nat := es.filterMap BoxEvent.created?

/-- The moves accepted through handle `a`, oldest first. -/
def acceptedBy (a : Nat) (es : List BoxEvent) : List Move := es.filterMap (BoxEvent.accepted? a)

end ShogiCore
