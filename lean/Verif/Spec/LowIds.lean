import Verif.Spec.NodeIndexer

/-!
# Specification: what becomes of node ids 0 and 1

The indexer starts every block as if a node with id -1 had just been seen, without having opened a range.
-/

namespace Osm.Spec
open Osm Osm.T

/-- The nodes of a block: id and encoded location. -/
def placed (pb : PrimitiveBlock) : List (Int × Int64) :=
  (sourceNodes pb).map fun n => (n.id.toInt,
    match NodeIndexer.nodeLocation pb n.lat n.lon with
    | .ok l => l
    | _ => 0)

/-- Slots of nodes: one for each, and an empty one for an id missing between two nodes; `last` is the id
before. -/
def slots : Int → List (Int × Int64) → List (Int × Int64)
  | _, [] => []
  | last, (i, l) :: r =>
    if i = last + 2 then (last + 1, 0) :: (i, l) :: slots i r else (i, l) :: slots i r

/-- The slots of the nodes that get into a range: not those at the start which follow one another from -1
with at most one id missing between them. -/
def ranged : Int → List (Int × Int64) → List (Int × Int64)
  | _, [] => []
  | last, (i, l) :: r => if i ≤ last + 2 then ranged i r else slots last ((i, l) :: r)

/-- The ids that have a place in the index, in order. -/
def rangedIds (blocks : List (Option PrimitiveBlock)) : List Int :=
  blocks.flatMap fun b => match b with
    | none => []
    | some pb => (ranged (-1) (placed pb)).map (·.1)

/-- The locations in the index, in order: those of all nodes of a block, also of those that did not get into
a range, unless none did. -/
def storedLocs (blocks : List (Option PrimitiveBlock)) : List Int64 :=
  blocks.flatMap fun b => match b with
    | none => []
    | some pb => if ranged (-1) (placed pb) = [] then [] else (slots (-1) (placed pb)).map (·.2)

/-- As `Indexable`, with ids 0 and 1 allowed. -/
structure Indexable0 (blocks : List (Option PrimitiveBlock)) : Prop where
  complete : ∀ pb, some pb ∈ blocks → DenseComplete pb
  ascending : (allNodes blocks).Pairwise fun a b => a.2.id.toInt < b.2.id.toInt
  ids : ∀ x ∈ allNodes blocks, 0 ≤ x.2.id.toInt
  blockSize : ∀ pb, some pb ∈ blocks → (sourceNodes pb).length < 2 ^ 23
  total : (allNodes blocks).length ≤ 2 ^ 39

end Osm.Spec
