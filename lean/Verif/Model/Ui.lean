import Verif.Model.Hl

/-!
# Model of internal/ui/format.go

The float computation `int(float64(w) * pct)` (format.go:12-16, 22) is not modelled: its result is an argument,
over which the theorems quantify.
-/

namespace Osm.Ui
open Osm

/-- `'%'`, `'S'`, `'N'`, `' '` -/
def percent : UInt8 := 37
def standout : UInt8 := 83
def normal : UInt8 := 78
def space : UInt8 := 32

/-- internal/ui/format.go:31-33 -/
def EscapePercent (s : List UInt8) : List UInt8 := s.flatMap fun c => if c = percent then [percent, percent] else [c]

/-- internal/ui/format.go:18-21 -/
def padRight (s : List UInt8) (w : Int) : List UInt8 :=
  if w - s.length > 0 then s ++ List.replicate (w - s.length).toNat space else s

/-- internal/ui/format.go:7-29, with `pre = int(float64(w) * pct)`. -/
def MarkupAsProgress (s : List UInt8) (w pre : Int) : List UInt8 :=
  if w = 0 then s
  else
    let s := padRight s w
    if pre < 0 then s
    else if pre ≥ s.length then s
    else [percent, standout] ++ EscapePercent (s.take pre.toNat) ++ [percent, normal] ++ EscapePercent (s.drop pre.toNat)

end Osm.Ui
