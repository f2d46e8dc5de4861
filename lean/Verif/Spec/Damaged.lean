import Verif.Spec.OsmFormat
import Verif.Spec.Interrupt

/-!
# Specification of damaged input (C93)
-/

namespace Osm.Spec
open Osm Osm.T Osm.Pbf Osm.Spec.OsmFormat

/-- The bytes are blocks of the two kinds from the first to the last one (there is at least one), and each block of data can
be unpacked and decoded: by some decoder which reads at least the structure of the groups. -/
def ReadableWhole (inflate : Inflate) (file : List UInt8) : Prop :=
  file ≠ [] ∧ ∃ bs, BlockFile 0 file bs ∧
    ∀ b ∈ bs, b.Kind = osmData → ∃ sched raw o pb, rawOf inflate sched b = .ok raw ∧ ReadPrimitiveBlock o raw = .ok pb

/-- The same without decoding the blocks. -/
def UnpackableWhole (inflate : Inflate) (file : List UInt8) : Prop :=
  file ≠ [] ∧ ∃ bs, BlockFile 0 file bs ∧ ∀ b ∈ bs, b.Kind = osmData → ∃ sched raw, rawOf inflate sched b = .ok raw

/-- The first `n` bytes of a file with the blobs `xs` end inside one of these. -/
def CutInside (file : List UInt8) (xs : List (GoStr × List UInt8)) (n : Nat) : Prop :=
  n < file.length ∧ ∀ j, ¬ IsFile (file.take n) (xs.take j)

end Osm.Spec
