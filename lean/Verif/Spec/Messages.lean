import Verif.Model.T
import Verif.Spec.Pb

/-!
# Specifications about messages
-/

namespace Osm.Spec
open Osm Osm.T

/-- Forget the spare capacity behind a slice: what remains is its content. -/
def trimSlice (s : Slice) : Slice := ⟨s.bytes, []⟩

/-- A group with the spare capacity of its raw sections forgotten. -/
def trimGroup (g : PrimitiveGroup) : PrimitiveGroup :=
  { g with RawDense := g.RawDense.map trimSlice, RawWays := g.RawWays.map trimSlice,
           RawRelations := g.RawRelations.map trimSlice }

/-- A block with the spare capacity of its raw sections forgotten. -/
def trimBlock (b : PrimitiveBlock) : PrimitiveBlock :=
  { b with StringTableRaw := b.StringTableRaw.map trimSlice,
           PrimitiveGroup := b.PrimitiveGroup.map trimGroup }

/-- Two blocks with equal decoded sections and byte-for-byte identical raw sections. -/
def SameContent (a b : PrimitiveBlock) : Prop := trimBlock a = trimBlock b

/-- `OnlySkipped opts b`: a section is kept raw if the options say so and decoded otherwise. -/
def GroupShape (o : PBReader) (g : PrimitiveGroup) : Prop :=
  (if o.SkipDenseNodes then g.Dense = none else g.RawDense = none) ∧
  (if o.SkipWays then g.Ways = [] else g.RawWays = []) ∧
  (if o.SkipRelations then g.Relations = [] else g.RawRelations = [])

/-- The same for a block. -/
def BlockShape (o : PBReader) (b : PrimitiveBlock) : Prop :=
  (if o.SkipStringTable then b.StringTable = none else b.StringTableRaw = none) ∧
  ∀ g ∈ b.PrimitiveGroup, GroupShape o g

/-- Everything decoded. -/
def readAll : PBReader := ⟨false, false, false, false⟩

/-- `x` is what parsing `raw` with `read` gives; both absent, or both present. -/
def OptParsed {α : Type} (read : Slice → Res α) : Option Slice → Option α → Prop
  | none, none => True
  | some raw, some x => read raw = .ok x
  | _, _ => False

/-- Element by element, `xs` are the results of parsing `raws`. -/
def ListParsed {α : Type} (read : Slice → Res α) : List Slice → List α → Prop
  | [], [] => True
  | raw :: raws, x :: xs => read raw = .ok x ∧ ListParsed read raws xs
  | _, _ => False

/-- `part` (read with options `o`) agrees with `full` (everything decoded). -/
def GroupAgrees (o : PBReader) (part full : PrimitiveGroup) : Prop :=
  (if o.SkipDenseNodes then part.Dense = none ∧ OptParsed ReadDenseNodes part.RawDense full.Dense
    else part.RawDense = none ∧ part.Dense = full.Dense) ∧
  (if o.SkipWays then part.Ways = [] ∧ ListParsed ReadWay part.RawWays full.Ways
    else part.RawWays = [] ∧ part.Ways = full.Ways) ∧
  (if o.SkipRelations then part.Relations = [] ∧ ListParsed ReadRelation part.RawRelations full.Relations
    else part.RawRelations = [] ∧ part.Relations = full.Relations)

/-- Element by element. -/
def GroupsAgree (o : PBReader) : List PrimitiveGroup → List PrimitiveGroup → Prop
  | [], [] => True
  | p :: ps, f :: fs => GroupAgrees o p f ∧ GroupsAgree o ps fs
  | _, _ => False

/-- The same for a block. -/
def BlockAgrees (o : PBReader) (part full : PrimitiveBlock) : Prop :=
  (if o.SkipStringTable then
      part.StringTable = none ∧ OptParsed ReadStringTable part.StringTableRaw full.StringTable
    else part.StringTableRaw = none ∧ part.StringTable = full.StringTable) ∧
  GroupsAgree o part.PrimitiveGroup full.PrimitiveGroup ∧
  part.Granularity = full.Granularity ∧ part.DateGranularity = full.DateGranularity ∧
  part.LatOffset = full.LatOffset ∧ part.LonOffset = full.LonOffset

end Osm.Spec

namespace Osm.Spec
open Osm

/-! ## Sizes and wire format -/

/-- Bytes taken by a list of numbers written as varints. -/
def varintsSize (ns : List Nat) : Nat := (ns.map fun n => (leb128 n).length).sum

/-- The (64-bit, wrapping) differences of a list, the first value being compared with `last`. -/
def differences (last : Int64) : List Int64 → List Int64
  | [] => []
  | x :: xs => (x - last) :: differences x xs

/-- Size of a packed list of unsigned 32-bit numbers. -/
def sizeU32 (vs : List UInt32) : Nat := varintsSize (vs.map (·.toNat))
/-- Size of a packed list of unsigned 64-bit numbers. -/
def sizeU64 (vs : List UInt64) : Nat := varintsSize (vs.map (·.toNat))
/-- Size of a packed list of signed 32-bit numbers (negative ones take the 64-bit
two's complement). -/
def sizeI32 (vs : List Int32) : Nat := varintsSize (vs.map fun v => (v.toInt % 2 ^ 64).toNat)
/-- Size of a packed zigzag delta list. -/
def sizeDelta (vs : List Int64) : Nat :=
  varintsSize ((differences 0 vs).map fun d => zigzag d.toInt)

/-- One field of a protobuf message as it appears on the wire, of one of the two wire types the
format uses: the tag `8·number + wireType`, then a varint, or a length and that many bytes. -/
inductive WireField : List UInt8 → Prop where
  | varint (tag val : List UInt8) (k v : Nat) : IsVarint tag k → k % 8 = 0 → IsVarint val v →
      WireField (tag ++ val)
  | bytes (tag len payload : List UInt8) (k : Nat) : IsVarint tag k → k % 8 = 2 →
      IsVarint len payload.length → WireField (tag ++ len ++ payload)

/-- Wherever the array contains a tag of one of the fields which are skipped without looking at
them (34: info of a way or relation; 42: info of dense nodes, changesets of a group), the number
following it is below 2^63. -/
def SkipsForward (arr : List UInt8) : Prop :=
  ∀ (i : Nat) (tag len rest : List UInt8) (k m : Nat), arr.drop i = tag ++ (len ++ rest) →
    IsVarint tag k → (k = 34 ∨ k = 42) → IsVarint len m → m < 2 ^ 63

end Osm.Spec

namespace Osm.Spec
open Osm Osm.T

/-- The content of an optional section, an empty one counting as absent. -/
def nonEmpty : Option Slice → Option (List UInt8)
  | none => none
  | some s => if s.bytes = [] then none else some s.bytes

end Osm.Spec
