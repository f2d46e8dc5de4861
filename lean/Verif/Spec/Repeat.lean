import Verif.Model.Interrupt
import Verif.Spec.Rewrite

/-! # Specification vocabulary for repeated runs (C77) -/

namespace Osm.Spec
open Osm Osm.T Osm.Pbf

/-- Two computations end the same way: both with a value (which are related), both with a panic, or neither ends. -/
inductive Alike {α β : Type} (R : α → β → Prop) : Res α → Res β → Prop where
  | ok (a : α) (b : β) : R a b → Alike R (.ok a) (.ok b)
  | panic : Alike R .panic .panic
  | hang : Alike R .hang .hang

/-- A file has the same bytes in two file systems, or exists in neither. -/
def SameData (f : String) (fs1 fs2 : FS) : Prop := (fs1 f).map (·.data) = (fs2 f).map (·.data)

/-- Two runs of a program end the same way, and if they complete, then with the same result and the same bytes in the
file `out`. -/
def SameRun {α : Type} (out : String) : Res (α × FS) → Res (α × FS) → Prop :=
  Alike fun r s => r.1 = s.1 ∧ SameData out r.2 s.2

/-- If the block is compressed (with a declared size) then what it inflates to is not longer than declared. -/
def NotLonger (inflate : Inflate) (b : Block) : Prop :=
  ∀ z size stream, ReadBlob b.Data = .ok ⟨none, some size, some z⟩ → inflate z.bytes = some stream →
    size.toInt ≤ 0 ∨ stream.length ≤ size.toInt

/-- If the block is compressed data (with a declared size) then what it inflates to is shorter than declared, or it is as
long and a primitive block on its own: not one which reads on behind its end. -/
def Definite (inflate : Inflate) (o : PBReader) (b : Block) : Prop :=
  b.Kind = osmData → ∀ z size stream, ReadBlob b.Data = .ok ⟨none, some size, some z⟩ → inflate z.bytes = some stream →
    size.toInt ≤ 0 ∨ stream.length < size.toInt ∨
      (stream.length = size.toInt ∧ ∃ c, ReadPrimitiveBlock o ⟨stream, []⟩ = .ok c)

/-- All blocks of a file have a property. -/
def AllBlocks (P : Block → Prop) (file : List UInt8) : Prop := ∀ bs, split file = .ok bs → ∀ b ∈ bs, P b

/-- The nodes decoded, everything else as it stands in the file. -/
def nodesDecoded : PBReader := ⟨true, false, true, true⟩
/-- The string table and the relations decoded, everything else as it stands in the file. -/
def relationsDecoded : PBReader := ⟨false, true, true, false⟩

end Osm.Spec
