import Verif.Model.Screen

/-! # Specification vocabulary for the screen (C80) -/

namespace Osm.Spec
open Osm.Screen

/-- The key of an event. -/
def keyOf : Event → Option Key
  | .key k => some k
  | _ => none

/-- The key pressed in a step. -/
def pressed : Kind → Option Key
  | .key k => some k
  | _ => none

/-- The widgets of a posted replacement. -/
def widgetsOf : Event → Option (List Widget)
  | .replace ws => some ws
  | _ => none

/-- The widgets of an action of the command. -/
def widgetsOfAct : Act → Option (List Widget)
  | .replace ws => some ws
  | _ => none

/-- The layout of some widgets: in that order, the last takes the room that is left. -/
def LaidOut (cells : List Cell) (ws : List Widget) : Prop :=
  cells.map (·.widget) = ws ∧ ∀ (i : Nat) (c : Cell), cells[i]? = some c → c.fill = if i + 1 = ws.length then 1 else 0

/-- Steps of the program itself. -/
def programSteps (ks : List Kind) : Nat := ks.countP (· == .program)
/-- Ticks of the clock. -/
def ticks (ks : List Kind) : Nat := ks.countP (· == .tick)
/-- The keys pressed, in order. -/
def keys (ks : List Kind) : List Key := ks.filterMap pressed

end Osm.Spec
