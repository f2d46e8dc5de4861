import Verif.Model.Timing
import Verif.Model.Ui

/-!
# Model of the progress bars

internal/ui/format.go, internal/ui/widget/widget_process_state.go and internal/ui/widget/widget_pass_progress.go.
Here float64 is computed as IEEE 754 says: rounding to the nearest number of 53 bits, ties to even. Simplification: the
exponents are not bounded (all numbers here are 0 or between 2^-128 and 2^128). What `int(f)` is for a NaN or an infinity is
left open by Go: an arbitrary value.
-/

namespace Osm.Progress
open Osm Osm.Timing

/-! ## float64 -/

/-- The exponent of a positive number: the largest `e` with `2 ^ e ≤ q`. -/
def expo (q : Rat) : Int :=
  let e : Int := (q.num.toNat.log2 : Int) - (q.den.log2 : Int)
  if q < (2 : Rat) ^ e then e - 1 else e

/-- The nearest integer, ties to even. -/
def toNearest (m : Rat) : Int :=
  if m - m.floor < 1 / 2 then m.floor
  else if 1 / 2 < m - m.floor then m.floor + 1
  else if m.floor % 2 = 0 then m.floor else m.floor + 1

/-- Rounding of a positive number. -/
def rndPos (q : Rat) : Rat := toNearest (q / (2 : Rat) ^ (expo q - 52)) * (2 : Rat) ^ (expo q - 52)

/-- Rounding to float64. -/
def rnd (q : Rat) : Rat := if q = 0 then 0 else if 0 < q then rndPos q else -rndPos (-q)

/-- `float64(i)` for a uint64 or an int. -/
def float (i : Int) : F64 := .fin (rnd i)

/-- `a / b` for an `a` that is not negative, not infinite or a NaN. -/
def div : F64 → F64 → F64
  | .fin a, .fin b => if b = 0 then (if a = 0 then .nan else .posInf) else .fin (rnd (a / b))
  | _, _ => .nan

/-- `a + b`, not negative. -/
def add : F64 → F64 → F64
  | .fin a, .fin b => .fin (rnd (a + b))
  | .posInf, .fin _ => .posInf
  | .fin _, .posInf => .posInf
  | .posInf, .posInf => .posInf
  | _, _ => .nan

/-- `a * b` of finite numbers; a NaN stays one. -/
def mul : F64 → F64 → F64
  | .fin a, .fin b => .fin (rnd (a * b))
  | _, _ => .nan

/-- `int(f)`: cuts off the fraction of a number that is not negative; `other` for a NaN or an infinity. -/
def toInt (other : Int) : F64 → Int
  | .fin q => q.floor
  | .negZero => 0
  | _ => other

/-- `if pct < 0 { pct = 0 } else if pct > 1 { pct = 1 }`: internal/ui/format.go:12-16,
internal/ui/widget/widget_pass_progress.go:36-40. -/
def clamp : F64 → F64
  | .fin q => if q < 0 then .fin 0 else if 1 < q then .fin 1 else .fin q
  | .negInf => .fin 0
  | .posInf => .fin 1
  | x => x

/-! ## Widgets -/

/-- internal/ui/widget/widget_process_state.go:36-38 -/
def filePct (at_ max : UInt64) : F64 := div (float at_.toNat) (float max.toNat)

/-- internal/ui/widget/widget_pass_progress.go:35-44 -/
def passPct (pass count at_ max : UInt64) : F64 :=
  let pfsPct := clamp (div (float at_.toNat) (float max.toNat))
  let pct := div (float pass.toNat) (float count.toNat)
  if pfsPct ≠ .nan then add pct (div pfsPct (float count.toNat)) else pct

/-- internal/ui/format.go:12-16 and 22: where the bar ends. -/
def columns (other : Int) (w : Int) (pct : F64) : Int := toInt other (mul (float w) (clamp pct))

/-- internal/ui/format.go:7-29 -/
def MarkupAsProgress (other : Int) (s : List UInt8) (w : Int) (pct : F64) : List UInt8 :=
  Ui.MarkupAsProgress s w (columns other w pct)

/-- `%d` of a uint64. -/
def decimal (n : Nat) : List UInt8 := (Nat.toDigits 10 n).map fun c => UInt8.ofNat c.toNat

/-- internal/ui/widget/widget_pass_progress.go:33: `Pass %d/%d`; `wpp.pass+1` wraps. -/
def passMsg (pass count : UInt64) : List UInt8 :=
  "Pass ".toList.map (fun c => UInt8.ofNat c.toNat) ++ decimal (pass + 1).toNat ++ [UInt8.ofNat '/'.toNat] ++ decimal count.toNat

/-- internal/ui/widget/widget_pass_progress.go:32-52, with a view of the given width: the markup set. -/
def passMarkup (other : Int) (pass count at_ max : UInt64) (w : Int) : List UInt8 :=
  MarkupAsProgress other (passMsg pass count) w (passPct pass count at_ max)

/-- internal/ui/widget/widget_process_state.go:31-46, with a view of the given width, for the text given to it: the markup
set. -/
def fileMarkup (other : Int) (msg : List UInt8) (at_ max : UInt64) (w : Int) : List UInt8 :=
  MarkupAsProgress other msg w (filePct at_ max)

end Osm.Progress
