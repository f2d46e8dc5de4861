import Verif.Spec.PowerLoss
import Verif.Spec.Rewrite

/-! # Specification vocabulary for a power failure while a file of blocks is written (C105) -/

namespace Osm.Spec
open Osm Osm.T Osm.Pbf

/-- As many bytes as were written, each of them the one that was written, or zero. -/
def Spoiled (left whole : List UInt8) : Prop :=
  left.length = whole.length ∧ ∀ i, i < left.length → left[i]? = some 0 ∨ left[i]? = whole[i]?

/-- What stands before the data of a block (its header's size and its header) is on one page, for every block of the file. -/
def HeadersOnOnePage (page : Nat) (xs : List (GoStr × List UInt8)) : Prop :=
  ∀ ys x zs, xs = ys ++ x :: zs →
    ∀ i, (fileOf ys).length ≤ i → i + x.2.length < (fileOf ys).length + (frame x.1 x.2).length →
      i / page = (fileOf ys).length / page

/-- A block that was read, and the one that was written: the same kind, and spoiled data. -/
def SpoiledBlock (b : Block) (x : GoStr × List UInt8) : Prop := b.Kind = x.1 ∧ Spoiled b.Data.bytes x.2

end Osm.Spec
