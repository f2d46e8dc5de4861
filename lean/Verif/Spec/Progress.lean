import Verif.Spec.Ui

/-!
# Specification of the progress bars
-/

namespace Osm.Spec

/-- The share of a file that is done. -/
def fileShare (at_ max : Nat) : Rat := (at_ : Rat) / max

/-- The share of the whole work that is done in pass `pass` (from 0) of `count`. -/
def passShare (pass count at_ max : Nat) : Rat := ((pass : Rat) + fileShare at_ max) / count

/-- How many characters of a line stand out. -/
def standingOut (line : List UInt8) : Nat := (shown 'N'.toUInt8 line).countP fun c => c.1 == 'S'.toUInt8

/-- The number a row of decimal digits stands for. -/
def digitsValue (s : List UInt8) : Nat := s.foldl (fun v c => 10 * v + (c.toNat - '0'.toNat)) 0

/-- A number as it is written: one or more decimal digits, no needless zero in front. -/
def Numeral (s : List UInt8) (n : Nat) : Prop :=
  s ≠ [] ∧ (∀ c ∈ s, '0'.toNat ≤ c.toNat ∧ c.toNat ≤ '9'.toNat) ∧ (1 < s.length → s.head? ≠ some '0'.toUInt8) ∧
    digitsValue s = n

end Osm.Spec
